import Verif.Props.Events
import Verif.Props.Random
import Verif.Proofs.Ground
/-!
# What calls of library objects in contract source do (C48, C54)
-/
namespace Verif.Lang
open Verif

theorem eventData_mem {kvs : List (PyKey × PyVal)} : ∀ {data : Dict Str PyVal}, eventData kvs = .ok data →
    data.length = kvs.length ∧ ∀ x v, Dict.get? data x = some v → (PyKey.str x, v) ∈ kvs := by
  induction kvs with
  | nil => intro data h; cases h; exact ⟨rfl, fun x v h => (by cases h)⟩
  | cons p kvs ih =>
    intro data h
    obtain ⟨k, v⟩ := p
    cases k with
    | str x =>
      rw [eventData] at h
      cases hr : eventData kvs with
      | error e => rw [hr] at h; cases h
      | ok r =>
        rw [hr] at h
        cases h
        obtain ⟨h1, h2⟩ := ih hr
        refine ⟨by simp [h1], fun y u hg => ?_⟩
        rw [Dict.get?_cons] at hg
        split at hg
        · rename_i e
          cases hg
          rw [← e]
          exact List.mem_cons_self
        · exact List.mem_cons_of_mem _ (h2 y u hg)
    | _ => cases h

/-- **C54, in contract source.** Where a contract calls an event it has declared, with a dict, and goes on, exactly one
event is recorded before it goes on: with the declared name, matching the declared parameters, holding the data given, of
the running contract, its caller and the signer. -/
theorem C54_language {M : Machine} {H : Host} {ev : Str} {ps : Dict Str Param} {kvs : List (PyKey × PyVal)} {k : Val → Prog}
    {w w' : World} {r : PyVal} (h : (callVal M (.event ev ps) [.data (.dict kvs)] [] k).run H w = (.ok r, w')) :
    ∃ w1 e, (k (.data .none)).run H w1 = (.ok r, w') ∧ w1.driver = { w.driver with events := w.driver.events ++ [e] } ∧
      Spec.Matches H ps e ∧ (∀ kv ∈ e.dataIndexed ++ e.data, (PyKey.str kv.1, kv.2) ∈ kvs) ∧ kvs.length = ps.length ∧
      e.contract = w.current.this ∧ e.caller = w.current.caller ∧ e.event = ev ∧ e.signer = w.current.signer := by
  have h : (orRaise (eventData kvs) fun data => api (.newLog ev ps) fun
      | .int i => api (.emit i.toNat data) fun r => k (.data r)
      | _ => .raise .unmodelled).run H w = (.ok r, w') := h
  obtain ⟨data, hd, h⟩ := orRaise_ok h
  obtain ⟨u, w2, h1, h⟩ := api_ok h
  obtain ⟨hlen, hmem⟩ := eventData_mem hd
  by_cases hdec : Spec.Declarable ps
  · rw [(C54_declare H w ev ps).1 hdec] at h1
    cases h1
    simp only at h
    obtain ⟨u, w1, h2, h⟩ := api_ok h
    have hl : ({ w with logs := w.logs ++ [{ event := ev, params := ps, signer := w.current.signer }] } : World).logs[(w.logs.length : Int).toNat]? =
        some { event := ev, params := ps, signer := w.current.signer } := by simp
    obtain ⟨e, he, hm, hdata, hl2, hc, hcl, hev, hsg⟩ := (C54_emit hl h2).2 u rfl
    have hu : u = .none := by
      simp only [Action.run, hl, emitEvent] at h2
      repeat' split at h2
      all_goals first | (cases h2; rfl) | cases h2
    subst hu
    exact ⟨w1, e, h, he, hm, fun kv hkv => hmem _ _ (hdata kv hkv), hlen.symm.trans hl2, hc, hcl, hev, hsg⟩
  · rw [(C54_declare H w ev ps).2 hdec] at h1
    cases h1

/-- **C48, in contract source.** What the functions of `random` do that a contract calls: seeding with the given salt, so
many bits, a draw below the given number, a draw between the given numbers (in that order). -/
theorem C48_language (M : Machine) (k : Val → Prog) :
    callVal M (.sys (py! "random.seed")) [] [] k = api (.seed none) (fun r => k (.data r)) ∧
    (∀ salt, callVal M (.sys (py! "random.seed")) [.data (.str salt)] [] k = api (.seed (some salt)) (fun r => k (.data r))) ∧
    (∀ salt, callVal M (.sys (py! "random.seed")) [] [(py! "aux_salt", .data (.str salt))] k = api (.seed (some salt)) (fun r => k (.data r))) ∧
    (∀ n : Nat, callVal M (.sys (py! "random.getrandbits")) [.data (.int n)] [] k = api (.getrandbits n) (fun r => k (.data r))) ∧
    (∀ n : Int, n < 0 → callVal M (.sys (py! "random.getrandbits")) [.data (.int n)] [] k = api (.getrandbits 0) (fun r => k (.data r))) ∧
    (∀ n, callVal M (.sys (py! "random.randrange")) [.data (.int n)] [] k = api (.draw (.randrange n)) (fun r => k (.data r))) ∧
    (∀ a b, callVal M (.sys (py! "random.randint")) [.data (.int a), .data (.int b)] [] k = api (.draw (.randint a b)) (fun r => k (.data r))) ∧
    ∀ a b, callVal M (.sys (py! "random.randint")) [] [(py! "b", .data (.int b)), (py! "a", .data (.int a))] k =
      api (.draw (.randint a b)) (fun r => k (.data r)) := by
  refine ⟨rfl, fun _ => rfl, fun _ => rfl, fun _ => rfl, fun n hn => ?_, fun _ => rfl, fun _ _ => rfl, fun _ _ => rfl⟩
  have : n.toNat = 0 := by omega
  rw [← this]
  rfl

/-- A contract's event call that goes on. -/
example : ∃ r w', (callVal ((Demo.chain Demo.srcB).machine 3) (.event (py! "E") [(py! "n", { types := [.int], idx := true })])
    [.data (.dict [(.str (py! "n"), .int 5)])] [] fun v => asData v fun d => .ret d).run Verif.Demo.host Demo.world = (.ok r, w') := by
  obtain ⟨r, h⟩ := ok_of_isOk (r := ((callVal ((Demo.chain Demo.srcB).machine 3) (.event (py! "E") [(py! "n", { types := [.int], idx := true })])
    [.data (.dict [(.str (py! "n"), .int 5)])] [] fun v => asData v fun d => .ret d).run Verif.Demo.host Demo.world).1) (by decide +kernel)
  exact ⟨r, _, pair_of_fst h⟩

end Verif.Lang
