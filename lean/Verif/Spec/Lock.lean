import Verif.Model.Lock
/-! # Specification of concurrent disk calls: one at a time -/
namespace Verif.Spec
open Verif

/-- The calls that returned, in the order in which they returned, of a schedule; `cur` are the calls in progress. -/
def returned (cur : Nat → Option DiskCall) : List SchedEvent → List DiskCall
  | [] => []
  | .call t c :: es => returned (upd cur t (some c)) es
  | .release t :: es => (cur t).toList ++ returned cur es
  | _ :: es => returned cur es

/-- The calls that returned in a schedule which begins with no call in progress. -/
def Returned (es : List SchedEvent) : List DiskCall := returned (fun _ => none) es

/-- A call running alone: `set` replaces both attributes, `delete` removes them if there is a value. -/
def alone (d : Disk) : DiskCall → Disk
  | .set l text block => Dict.set d l { value := text, block := some block }
  | .delete l => if (d.attrs l).value = none then d else Dict.set d l {}

/-- The disk after the calls, one after the other. -/
def oneByOne (d : Disk) (cs : List DiskCall) : Disk := cs.foldl alone d

end Verif.Spec
