/-
What calls made by several threads on one registry come to: the life of each aggregator as one sequence of operations,
and what each call asked of which aggregator, got from it, and answered.
-/
import Verif.Model.ConcRegistry
import Verif.Lemmas.RegistryStep

namespace Wrtstat
namespace Registry

set_option autoImplicit false

open Aggregator (AOp AObs Trans)

/-- Aggregator `k` was built from the options of the registry, given what its creation asks of it, and then what the
threads asked of it, one after the other; `a` is what it is now and `out` is what it has handed out. -/
def Life {T : Type} (env : Env) (opt : AggregatorOpts) (log : List (Option T × Nat × AOp)) (out : List (T × Nat × AggData)) (k : Nat)
    (a : Aggregator) : Prop :=
  ∃ (q : Ask) (now : Int) (a0 : Aggregator) (bs : List AOp) (rest : List (Option T × Nat × AOp)),
    Aggregator.new opt q.clk q.rand now = .ok a0 ∧
    (bs = [] ∨ bs = [.enable false] ∨ ∃ rd, q.ini = some rd ∧ bs = [.add q.iclk1 q.iclk2 rd.ts (.reduced rd)]) ∧
    (log.filter fun e => e.2.1 = k) = (bs.map fun op => (none, k, op)) ++ rest ∧ (∀ e ∈ rest, e.1 ≠ none) ∧
    Trans env a0 (bs ++ rest.map fun e => e.2.2) a (forRef k (out.map Prod.snd))

/-- Aggregator `k` is one the call is about: created for the id given, or for the id that the name given had, or the one
the pusher was made for. -/
def Right (opt : RegistryOpts) (born : List (Name × Nat)) (k : Nat) : RegOp → Prop
  | .call p .. => k = p.ref
  | .addData _ nm .. => ∃ (j id : Nat) (nm' : Name), born[j]? = some (nm, id) ∧ born[k]? = some (nm', id)
  | .pusherName _ nm .. => ∃ (j id : Nat) (nm' : Name), born[j]? = some (nm, id) ∧ born[k]? = some (nm', id)
  | op => ∀ id, op.target = some id → IdOk opt id → ∃ nm, born[k]? = some (nm, id)

/-- Calls about one aggregator. -/
def RegOp.single : RegOp → Prop
  | .addId .. | .addData .. | .pop _ | .forcePop _ | .pusherId .. | .pusherName .. | .call .. | .direct .. => True
  | _ => False

/-- What a call about one aggregator answers when there is none. -/
def noAnswer : RegOp → Resp
  | .addId .. | .addData .. => .bool false
  | .pop _ | .forcePop _ => .record none
  | .pusherId .. | .pusherName .. => .pusher none
  | _ => .handed []

/-- What a call about one aggregator asks of it, and what it answers, `o` being what these operations give on that
aggregator (a disabled aggregator ignores what is added and says that all is well). -/
def Gives (k : Nat) (o : AObs) (op : RegOp) (resp : Resp) (ops : List AOp) : Prop :=
  match op with
  | .addId _ c1 c2 now v n => ops = [.add c1 c2 now (.one v n)] ∧ resp = .bool (!o.a.enabled || !o.accepted.isEmpty)
  | .addData _ _ c1 c2 rd => ops = [.add c1 c2 rd.ts (.reduced rd)] ∧ resp = .bool (!o.a.enabled || !o.accepted.isEmpty)
  | .pop _ => ops = [.pop] ∧ resp = .record o.received.head?
  | .forcePop _ => ops = [.forcePop] ∧ resp = .record o.received.head?
  | .pusherId _ h => ops = [] ∧ resp = .pusher (some { ref := k, p := { token := true, handler := h } })
  | .pusherName _ _ _ h => ops = [] ∧ resp = .pusher (some { ref := k, p := { token := true, handler := h } })
  | .call p c1 c2 ts x => ops = (if p.p.token = true then [.push c1 c2 ts x p.p.handler] else []) ∧ resp = .handed o.received
  | .direct _ op => ops = [op] ∧ resp = .handed o.received
  | _ => False

/-- One aggregator met by `pop_all`: its identity, id and name, and the record taken from it. -/
structure Visit where
  k : Nat
  id : Nat
  nm : Name
  d : Option AggData

def Visit.ops (force : Bool) (clk : Nat → Int) (v : Visit) : List (Nat × AOp) :=
  [(v.k, .separate (clk v.id) 0 false force), (v.k, if force then .forcePop else .pop)]

def Visit.outs (v : Visit) : List (Nat × AggData) := v.d.toList.map fun d => (v.k, d)

def Visit.named (v : Visit) : List (Name × AggData) := v.d.toList.map fun d => (v.nm, d)

/-- A call of thread `t` with its answer, the operations `l` it made on aggregators and the records `o` it got from them. -/
inductive Done {T : Type} (env : Env) (opt : RegistryOpts) (born : List (Name × Nat)) (log : List (Option T × Nat × AOp)) (t : T) :
    RegOp → Resp → List (Nat × AOp) → List (Nat × AggData) → Prop
  /-- not about aggregators -/
  | none (op : RegOp) (resp : Resp)
      (h : (∃ q n now, op = .create q n now) ∨ (∃ id, op = .getName id) ∨ (∃ v, op = .setInit v) ∨ ∃ n, op = .del n) :
      Done env opt born log t op resp [] []
  /-- about an aggregator that does not exist -/
  | missed (op : RegOp) (h : op.single) : Done env opt born log t op (noAnswer op) [] []
  /-- about one aggregator: the answer is that of the aggregator after the operations before this one -/
  | used (op : RegOp) (resp : Resp) (k : Nat) (pre post : List (Option T × Nat × AOp)) (outs : List (T × Nat × AggData)) (a : Aggregator)
      (ops : List AOp) (o : AObs) (hk : Right opt born k op) (hlog : log = pre ++ (ops.map fun op => (some t, k, op)) ++ post)
      (hlife : Life env opt.toAggregatorOpts pre outs k a) (ho : Aggregator.execAll env { a := a } ops = .ok o)
      (hg : Gives k o op resp ops) : Done env opt born log t op resp (ops.map fun op => (k, op)) (o.received.map fun d => (k, d))
  /-- `pop_all`: every record is named after the aggregator it was taken from -/
  | popAll (force : Bool) (clk : Nat → Int) (vs : List Visit) (hv : ∀ v ∈ vs, born[v.k]? = some (v.nm, v.id)) :
      Done env opt born log t (.popAll force clk) (.records (vs.flatMap Visit.named)) (vs.flatMap (Visit.ops force clk))
        (vs.flatMap Visit.outs)
  | enable (v : Bool) (ks : List Nat) : Done env opt born log t (.enable v) .unit (ks.map fun k => (k, .enable v)) []

/-- What thread `t` asked of which aggregator, in order. -/
def askedBy {T : Type} [DecidableEq T] (t : T) (log : List (Option T × Nat × AOp)) : List (Nat × AOp) :=
  (log.filter fun e => e.1 = some t).map Prod.snd

/-- What thread `t` got from which aggregator, in order. -/
def gotBy {T : Type} [DecidableEq T] (t : T) (out : List (T × Nat × AggData)) : List (Nat × AggData) :=
  (out.filter fun e => e.1 = t).map Prod.snd

end Registry
end Wrtstat
