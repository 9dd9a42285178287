import Verif.Spec.Runtime
/-!
# The keys a transaction depends on
-/
namespace Verif.Spec

/-- The transaction reports the key as read. -/
def Reads (o : Output) (k : Str) : Prop := k ∈ Dict.keys o.reads

/-- What is kept under a key apart from the writes of this block. -/
def stored (d : Driver) (k : Str) : Except PyErr PyVal := Driver.find { d with pendingWrites := [] } k

/-- The drivers give the same under a key, and would if the writes of the block were taken back. -/
def SameUnder (d e : Driver) (k : Str) : Prop := e.find k = d.find k ∧ stored e k = stored d k

/-- The outputs differ at most in what they report as read. -/
structure SameOutput (o o' : Output) : Prop where
  result : o'.result = o.result
  stamps : o'.stampsUsed = o.stampsUsed
  writes : o'.writes = o.writes
  events : o'.events = o.events

end Verif.Spec
