import Verif.Spec.Runtime
/-!
# What `ctx` should be: a lexical parameter

The reference interpreter hands the context down to callees as an argument; there is no stack, nothing to
pop, and nothing to restore.
-/
namespace Verif

/-- At most `n` calls of exported functions are nested in the program. -/
def Prog.Nests : Prog → Nat → Prop
  | .ret _, _ => True
  | .raise _, _ => True
  | .act _ k, n => ∀ r, (k r).Nests n
  | .call _ body k, n => 0 < n ∧ body.Nests (n - 1) ∧ ∀ r, (k r).Nests n
  | .load _ _ body k, n => body.Nests n ∧ ∀ r, (k r).Nests n

namespace Spec

/-- The context in which the entry function of a transaction runs. -/
def entryFrame (tx : Tx) (owner submission : PyVal) : Frame :=
  { this := some tx.contract, caller := some tx.sender, signer := some tx.sender,
    entry := some (tx.contract, tx.function), owner := owner, submission := submission }

/-- The context of a function of `c` called from another contract: `c` runs, on behalf of the contract that was
running; signer and entry stay. -/
def callee (f : Frame) (c : Str) (owner : PyVal) : Frame :=
  { this := some c, caller := f.this, signer := f.signer, entry := f.entry, owner := owner, submission := f.submission }

/-- May code of a contract with this owner run on behalf of this caller? -/
def mayRun (owner : PyVal) (caller : Option Str) : Prop := owner = .none ∨ ∃ c, owner = .str c ∧ caller = some c

open Classical in
/-- Run a program in a context. The base frame and the stack of the world are not looked at. -/
noncomputable def runLex (H : Host) : Prog → Frame → World → Except PyErr PyVal × World
  | .ret v, _, w => (.ok v, w)
  | .raise e, _, w => (.error e, w)
  | .act a k, f, w =>
    let r := a.run H { w with base := f, stack := [] }
    runLex H (k r.1) f r.2
  | .call c body k, f, w =>
    if f.this = some c then
      let r := runLex H body f w
      runLex H (k r.1) f r.2
    else
      match w.driver.getOwner c with
      | (.error e, d) => runLex H (k (.error e)) f { w with driver := d }
      | (.ok owner, d) =>
        if mayRun owner f.this then
          let r := runLex H body (callee f c owner) { w with driver := d }
          runLex H (k r.1) f r.2
        else runLex H (k (.error .exception)) f { w with driver := d }
  | .load name dyn body k, f, w =>
    match importStart H w name dyn with
    | (.error e, w) => runLex H (k (.error e)) f w
    | (.ok .missing, w) => runLex H (k (.error .importError)) f w
    | (.ok .host, w) => runLex H (k (.ok .none)) f w
    | (.ok .loaded, w) => runLex H (k (.ok .none)) f w
    | (.ok .contract, w) =>
      match runLex H body f w with
      | (.error e, w) => runLex H (k (.error e)) f w
      | (.ok _, w) => runLex H (k (.ok .none)) f (w.addLoaded name)

end Spec

/-- The world without its context: everything but the base frame and the stack. -/
def World.forget (w : World) : World := { w with base := {}, stack := [] }

end Verif
