/-
Specification vocabulary for windows: which calls a published record stands for.
-/
import Verif.Spec.Adds
import Verif.Model.Separator

namespace Wrtstat

/-- `d` is a faithful summary of the calls `as` (percentiles and timestamp aside), for a reducer of
`limit` samples and `levels` levels on platform `env`. -/
structure Summary (env : Env) (limit levels : Nat) (as : List AddArg) (d : AggData) : Prop where
  /-- there is something to summarise -/
  nonempty : as ≠ []
  count : d.count = sumCount as
  /-- nothing unaccounted for -/
  balance : d.lossy + d.data.length = sumWeight as
  /-- no sample is invented or duplicated -/
  samples : ∀ x, d.data.count x ≤ (allValues as).count x
  bound : d.data.length ≤ limit
  /-- as many samples as there is room for -/
  size : d.data.length = if levels = 0 then 0 else Min.min limit (allValues as).length
  /-- below the limit all samples are kept -/
  complete : 1 ≤ levels → (allValues as).length ≤ limit → d.data.Perm (allValues as)
  min : d.min = minI (allExtremes as)
  max : d.max = maxI (allExtremes as)
  /-- in exact arithmetic the average is the truncated mean -/
  avg : (∀ x, env.rnd x = x) → allValues as ≠ [] →
    d.avg = (allValues as).sum.tdiv (allValues as).length

/-- Alignment toward zero to a multiple of the step. -/
def align (step t : Int) : Int := t.tdiv step * step

/-- The time an event with timestamp `ts` is meant for: 0 stands for the clock reading unless the
resolution is `none`. -/
def meant (resolution : Resolution) (clk ts : Int) : Int :=
  if ts = 0 ∧ resolution ≠ .none then clk else ts

/-- The calls, in order of arrival, whose aligned time lies in `[lo, hi)`. -/
def eventsIn (acc : List (Int × AddArg)) (lo hi : Int) : List AddArg :=
  (acc.filter fun e => decide (lo ≤ e.1 ∧ e.1 < hi)).map Prod.snd

/-- Sum of the counts of published records. -/
def logCount (l : List AggData) : Nat := (l.map fun d => d.count).sum

namespace Separator

/-- Client operations on a separator other than `force_pop` and `clear`. -/
inductive SOp where
  /-- any `add`/`push` overload with two clock readings -/
  | push (clk1 clk2 ts : Int) (a : AddArg) (handler : Bool)
  | separate (clk ts : Int) (handler force : Bool)
  | pop
  | look
deriving DecidableEq, Repr

/-- Clock readings of an operation are not negative. -/
def SOp.clockOk : SOp → Prop
  | .push c1 c2 _ _ _ => 0 ≤ c1 ∧ 0 ≤ c2
  | .separate c _ _ _ => 0 ≤ c
  | _ => True

instance (op : SOp) : Decidable op.clockOk := by
  cases op <;> simp only [SOp.clockOk] <;> infer_instance

/-- What an observer knows of a run: the object, the records received (from handlers and `pop`, in
order of reception), and the accepted events with their aligned time. -/
structure Obs where
  s : Separator
  received : List AggData := []
  accepted : List (Int × AddArg) := []

/-- Execute one operation, recording what can be observed. -/
def exec (env : Env) (o : Obs) : SOp → M Obs
  | .push clk1 clk2 ts a handler => do
    let (ok, out, s) ← o.s.push env clk1 clk2 ts a handler
    .ok { s := s
          received := o.received ++ out
          accepted := if ok then
              o.accepted ++ [(align o.s.step (meant o.s.resolution clk1 ts), a)]
            else o.accepted }
  | .separate clk ts handler force => do
    let (_, out, s) ← o.s.separate env clk ts handler force
    .ok { o with s := s, received := o.received ++ out }
  | .pop =>
    let (d, s) := o.s.pop
    .ok { o with s := s, received := o.received ++ d.toList }
  | .look => do
    let _ ← o.s.getCurrent env
    .ok o

/-- Execute a history from a newly built separator. -/
def execAll (env : Env) (o : Obs) (ops : List SOp) : M Obs := ops.foldlM (exec env) o

/-- Operations that hand records to a handler. -/
def SOp.handed : SOp → Bool
  | .push _ _ _ _ h => h
  | .separate _ _ h _ => h
  | _ => false

end Separator
end Wrtstat
