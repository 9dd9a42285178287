import Verif.Proofs.Ast7
import Verif.Props.Ast
/-!
# C76: exactly which contracts are accepted
-/
namespace Verif
open Spec

theorem transform_assign_of {I : PyInfo} {c : Str} {t t' : Ast} (h : t.compile I c = .ok t') {ts : List Ast} {v : Ast}
    (hn : Ast.assign ts v ∈ t.nodes) : ∃ n', (Ast.assign ts v).transform t.names c = .ok n' := by
  obtain ⟨s, _, _, h3⟩ := compile_inv h
  rcases transform_fwd t.names c t t' (compile_fn h) h3 _ hn with ⟨id, he⟩ | ⟨f, as, ks, he⟩ | ⟨n', _, ht⟩
  · cases he
  · cases he
  · exact ⟨n', ht⟩

/-- C76. A contract is accepted exactly if it follows the rules of `Spec.Rules`, whatever name it is submitted
under. -/
theorem C76_accepted {I : PyInfo} {c : Str} {t : Ast} : Accepted I c t ↔ Rules I t := by
  refine ⟨fun h => ?_, accepted_of⟩
  obtain ⟨n1, n2, n3⟩ := C39_names h
  obtain ⟨k1, k2, k3⟩ := C40_syntax h
  obtain ⟨e1, e2, e3, e4, e5, e6⟩ := C41_entry_points h
  obtain ⟨t', ht⟩ := h
  obtain ⟨s, _, _, _, _, _, _, h8⟩ := compile_node ht
  refine ⟨n1, n2, n3, fun ts x hn hx => ?_, fun ts f as ks hn => ?_, fun ts cls as ks hn hc => ⟨?_, ?_, ?_⟩, ?_, e3, e4, ?_, e1, e2, e5, k3, k2, k1⟩
  · obtain ⟨s1, s2, g1, _, g3⟩ := h8 _ hn
    have g1 : visitAssign ts (.name x) s1 = .ok s2 := g1
    have hx' : ownClasses.contains x = true := List.contains_iff_mem.2 hx
    have e : visitAssign ts (.name x) s1 = .ok (s1.flagIf (ownClasses.contains x) 13) := rfl
    rw [e, hx'] at g1
    cases g1
    exact Lint.flag_ne _ _ g3
  · obtain ⟨s1, s2, g1, _, _⟩ := h8 _ hn
    have g1 : visitAssign ts (.call f as ks) s1 = .ok s2 := g1
    cases f with
    | name id => exact .inl ⟨id, rfl⟩
    | «attribute» v a => exact .inr ⟨v, a, rfl⟩
    | _ => cases g1
  · obtain ⟨n', htr⟩ := transform_assign_of ht hn
    obtain ⟨_, _, _, _, ⟨ho, _⟩ | ⟨_, _, _, _, _, x, tl, _, _, hts, _⟩⟩ := transform_assign_inv htr
    · rw [ormCall_of hc] at ho; cases ho
    · exact ⟨x, tl, hts⟩
  · obtain ⟨s1, s2, g1, _, g3⟩ := h8 _ hn
    intro ids cs hm
    have := ((visitAssign_clean (ts := ts) (v := .call (.name cls) as ks) g1).2.2.2 g3 cls as ks rfl hc).2.1 _ hm
    cases this
  · obtain ⟨s1, s2, g1, _, g3⟩ := h8 _ hn
    intro ho v
    have := ((visitAssign_clean (ts := ts) (v := .call (.name cls) as ks) g1).2.2.2 g3 cls as ks rfl hc).2.2 ho
    exact ⟨fun hm => (this _ hm).1 rfl, fun hm => (this _ hm).2 rfl⟩
  · intro nm as os body ds rs hn n hb hnot
    have := e6 nm as os body ds rs hn n hb
    cases hnot with
    | imp => cases this.1
    | impFrom => cases this.1
    | fn => cases this.2
  · intro f hf he hr
    obtain ⟨os, b, hn⟩ := functions_node hf
    obtain ⟨s1, s2, g1, _, g3⟩ := h8 _ hn
    obtain ⟨_, _, _, _, _, _, _, k⟩ := (visitFunction_clean g1).2 g3
    obtain ⟨x, a, tl, hl⟩ := k he hr
    exact ⟨x, a :: tl, hl⟩

/-- C76, the example follows the rules. -/
example : Rules AstDemo.info AstDemo.token := C76_accepted.1 AstDemo.token_accepted

/-- C76: whether a contract is accepted does not depend on the name it is submitted under. -/
theorem C76_name {I : PyInfo} {c c' : Str} {t : Ast} : Accepted I c t ↔ Accepted I c' t :=
  C76_accepted.trans C76_accepted.symm

/-- C76, used to refuse: a contract with a `lambda` anywhere is refused, under every name. -/
example (c : Str) (ids : List Str) (cs : List Ast) :
    ¬ Accepted AstDemo.info c (AstDemo.mod [.node .lambda ids cs, AstDemo.get]) := by
  rw [C76_accepted]
  intro R
  refine R.kinds .lambda ids cs ?_ (by simp)
  simp [AstDemo.mod, Ast.nodes, nodesAll]

end Verif
