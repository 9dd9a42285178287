import Verif.Model.Base
/-!
# Metering: `execution/tracer.py` and `execution/runtime.py` (`deduct_write`)
-/
namespace Verif

/-- tracer.py:28 `MAX_STAMPS`. -/
def maxStamps : Nat := 6500000
/-- tracer.py:38 `max_call_count`. -/
def maxCallCount : Nat := 800000
/-- runtime.py:80 `WRITE_MAX`. -/
def writeMax : Nat := 1024 * 128
/-- tracer.py:119: 500 MB. -/
def memMax : Nat := 500 * 1024 * 1024

/-- tracer.py:31-40 `Tracer` fields and runtime.py:94 `Runtime.writes`. -/
structure Meter where
  cost : Nat := 0
  supplied : Int := 0
  lastMem : Nat := 0
  totalMem : Nat := 0
  started : Bool := false
  calls : Nat := 0
  writes : Nat := 0
  deriving DecidableEq, Repr

namespace Meter

/-- tracer.py:42-46 `start`. -/
def start (m : Meter) : Meter := { m with cost := 0, calls := 0, started := true }

/-- tracer.py:48-51 `stop`. -/
def stop (m : Meter) : Meter := { m with started := false }

/-- tracer.py:53-59 `reset`. -/
def reset (m : Meter) : Meter :=
  { m with cost := 0, supplied := 0, lastMem := 0, totalMem := 0, started := false, calls := 0 }

/-- tracer.py:64-68 `add_cost`. -/
def addCost (m : Meter) (c : Nat) : Except PyErr Unit × Meter :=
  let m := { m with cost := m.cost + c }
  if (m.cost : Int) > m.supplied ∨ m.cost > maxStamps then (.error .assertion, m.stop) else (.ok (), m)

/-- One traced line event, tracer.py:88-131. `contract`: the frame's globals contain `__contract__`;
`opCost`: `cu_costs.get(opcode, 1)`; `mem`: the resident set size read by the tracer (any number).
No event arrives when the tracer is stopped (`sys.settrace(None)`). -/
def line (m : Meter) (contract : Bool) (opCost mem : Nat) : Except PyErr Unit × Meter :=
  if m.started then
    let m := { m with calls := m.calls + 1 }
    if m.calls > maxCallCount then (.error .assertion, m.stop)
    else if contract then
      let last := if m.lastMem = 0 then mem else m.lastMem
      let m := { m with totalMem := m.totalMem + (mem - last), lastMem := mem }
      if m.totalMem > memMax then (.error .assertion, m.stop)
      else
        let m := { m with cost := m.cost + opCost }
        if (m.cost : Int) > m.supplied ∨ m.cost > maxStamps then (.error .assertion, m.stop) else (.ok (), m)
    else (.ok (), m)
  else (.ok (), m)

/-- runtime.py:135-142 `deduct_write`; `size = len(key) + len(value)` in bytes. -/
def deductWrite (m : Meter) (size : Nat) : Except PyErr Unit × Meter :=
  if m.started then
    let m := { m with writes := m.writes + size }
    if m.writes < writeMax then m.addCost (size * 25) else (.error .assertion, m)
  else (.ok (), m)

/-- runtime.py:128-132 `deduct_read` (its only call is commented out in driver.py:86-87). -/
def deductRead (m : Meter) (size : Nat) : Except PyErr Unit × Meter :=
  if m.started then m.addCost size else (.ok (), m)

end Meter
end Verif
