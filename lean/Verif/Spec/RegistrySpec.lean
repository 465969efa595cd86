/-
Client histories of a registry: operations, answers, and, for each aggregator ever created, the
operations addressed to it and the records received from it.
-/
import Verif.Spec.AggregatorSpec
import Verif.Model.Registry

namespace Wrtstat
namespace Registry

open Aggregator (AOp AObs)

/-- Client operations on a registry and on the pushers it makes.  `direct` is an operation on the
aggregator returned by `get_aggregator(id)`. -/
inductive RegOp where
  | create (q : Ask) (name : Name) (now : Int)
  | addId (id : Nat) (clk1 clk2 now v : Int) (count : Nat)
  | addData (q : Ask) (name : Name) (clk1 clk2 : Int) (rd : ReducedData)
  | pop (id : Nat)
  | forcePop (id : Nat)
  | popAll (force : Bool) (clk : Nat → Int)
  | getName (id : Nat)
  | setInit (v : Bool)
  | pusherId (id : Nat) (handler : Bool)
  | pusherName (q : Ask) (name : Name) (now : Int) (handler : Bool)
  | call (p : RPusher) (clk1 clk2 ts : Int) (x : AddArg)
  | enable (v : Bool)
  | del (name : Name)
  | direct (id : Nat) (op : AOp)

/-- Answers. -/
inductive Resp where
  | unit
  | id (n : Nat)
  | bool (b : Bool)
  | name (n : Name)
  | record (d : Option AggData)
  | records (l : List (Name × AggData))
  | pusher (p : Option RPusher)
  | handed (l : List AggData)
deriving DecidableEq

/-- Execute an operation. -/
def step (env : Env) (r : Registry) : RegOp → M (Resp × Registry)
  | .create q name now => do
    let (id, r) ← r.createAggregator env q name now
    .ok (.id id, r)
  | .addId id clk1 clk2 now v count => do
    let (b, r) ← r.addId env id clk1 clk2 now v count
    .ok (.bool b, r)
  | .addData q name clk1 clk2 rd => do
    let (b, r) ← r.addData env q name clk1 clk2 rd
    .ok (.bool b, r)
  | .pop id => do
    let (d, r) ← r.pop id
    .ok (.record d, r)
  | .forcePop id => do
    let (d, r) ← r.forcePop env id
    .ok (.record d, r)
  | .popAll force clk => do
    let (l, r) ← r.popAll env force clk
    .ok (.records l, r)
  | .getName id => .ok (.name (r.getName id), r)
  | .setInit v => .ok (.unit, r.setInitializer v)
  | .pusherId id handler => do
    let p ← r.pusherId id handler
    .ok (.pusher p, r)
  | .pusherName q name now handler => do
    let (p, r) ← r.pusherName env q name now handler
    .ok (.pusher p, r)
  | .call p clk1 clk2 ts x => do
    let (l, r) ← r.call env p clk1 clk2 ts x
    .ok (.handed l, r)
  | .enable v => .ok (.unit, r.enable v)
  | .del name => do
    let (b, r) ← r.del name
    .ok (.bool b, r)
  | .direct id op => do
    let o ← r.getAggregator id
    match o with
    | none => .ok (.handed [], r)
    | some c => do
      let o ← Aggregator.exec env { a := c.agg } op
      .ok (.handed o.received, r.update c.ref o.a)

/-- The id an operation is addressed to, for operations taking an id. -/
def RegOp.target : RegOp → Option Nat
  | .addId id _ _ _ _ _ => some id
  | .pop id => some id
  | .forcePop id => some id
  | .pusherId id _ => some id
  | .direct id _ => some id
  | _ => none

/-- Ids of the form the registry gives out: congruent to `id_init` modulo `id_step` (no restriction
when `id_step` is 1), or `bad_id`. -/
def IdOk (opt : RegistryOpts) (id : Nat) : Prop :=
  id = badId ∨ (id % opt.idStep = opt.idInit % opt.idStep ∧ id + opt.idStep ≤ idMod)

instance (opt : RegistryOpts) (id : Nat) : Decidable (IdOk opt id) := by unfold IdOk; infer_instance

/-- Operations taking an id are given an id of the right form. -/
def RegOp.idOk (opt : RegistryOpts) (op : RegOp) : Prop := ∀ id, op.target = some id → IdOk opt id

instance (opt : RegistryOpts) (op : RegOp) : Decidable (op.idOk opt) :=
  match h : op.target with
  | none => isTrue (by intro id hid; rw [h] at hid; cases hid)
  | some id =>
    if hid : IdOk opt id then isTrue (by intro id' hid'; rw [h] at hid'; cases hid'; exact hid)
    else isFalse (fun hx => hid (hx id h))

/-- The step of ids is positive and there are ids for `n` more names. -/
def Room (opt : RegistryOpts) (n : Nat) : Prop := 0 < opt.idStep ∧ opt.idInit + (n + 3) * opt.idStep < idMod

instance (opt : RegistryOpts) (n : Nat) : Decidable (Room opt n) := by unfold Room; infer_instance

/-- The aggregator of a live name: the one at the position of its id. -/
def cellOf (r : Registry) (n : Name) : Option Cell :=
  (r.dict.dict.lookup n).bind fun id => (r.getAggregator id).toOption.join

/-- The aggregator of a live id. -/
def cellAt (r : Registry) (id : Nat) : Option Cell :=
  (r.dict.index.lookup id).bind r.cellOf

/-- Operations addressed to the aggregator of the live id. -/
def toId (r : Registry) (id : Nat) (ops : List AOp) : List (Nat × AOp) :=
  (r.cellAt id).toList.flatMap fun c => ops.map fun op => (c.ref, op)

/-- The operations at birth: a disabled registry disables the aggregator, an initializer adds its
record. -/
def birth (r : Registry) (q : Ask) : List AOp :=
  if r.enabled = false then [.enable false]
  else if r.hasInit = true then q.ini.toList.map fun rd => .add q.iclk1 q.iclk2 rd.ts (.reduced rd)
  else []

/-- The operations at birth of the aggregator of a name, if it is created now. -/
def births (r : Registry) (q : Ask) (n : Name) : List (Nat × AOp) :=
  if n ≠ [] ∧ (r.cellOf n).isNone then (r.birth q).map fun op => (r.nextRef, op) else []

/-- The identity of the aggregator of a name, when it is live or created now. -/
def refFor (r : Registry) (n : Name) : Nat := ((r.cellOf n).map Cell.ref).getD r.nextRef

/-- The aggregator operations an operation stands for, with the identity of their target. -/
def asked (r : Registry) : RegOp → List (Nat × AOp)
  | .create q n _ => r.births q n
  | .addId id clk1 clk2 now v count => r.toId id [.add clk1 clk2 now (.one v count)]
  | .addData q n clk1 clk2 rd =>
    r.births q n ++ (if n = [] then [] else [(r.refFor n, .add clk1 clk2 rd.ts (.reduced rd))])
  | .pop id => r.toId id [.pop]
  | .forcePop id => r.toId id [.forcePop]
  | .popAll force clk => r.dict.dict.flatMap fun p =>
      r.toId p.2 [.separate (clk p.2) 0 false force, if force then .forcePop else .pop]
  | .getName _ => []
  | .setInit _ => []
  | .pusherId _ _ => []
  | .pusherName q n _ _ => r.births q n
  | .call p clk1 clk2 ts x =>
    if (r.find p.ref).isSome ∧ p.p.token = true then [(p.ref, .push clk1 clk2 ts x p.p.handler)] else []
  | .enable v => r.dict.dict.flatMap fun p => r.toId p.2 [.enable v]
  | .del _ => []
  | .direct id op => r.toId id [op]

/-- The records an operation delivers, with the identity of the aggregator they are attributed to:
the aggregator of the id asked, of the name reported, or of the pusher called. -/
def delivered (r : Registry) (op : RegOp) (resp : Resp) : List (Nat × AggData) :=
  match op, resp with
  | .pop id, .record d => (r.cellAt id).toList.flatMap fun c => d.toList.map fun d => (c.ref, d)
  | .forcePop id, .record d => (r.cellAt id).toList.flatMap fun c => d.toList.map fun d => (c.ref, d)
  | .popAll _ _, .records l => l.flatMap fun p => (r.cellOf p.1).toList.map fun c => (c.ref, p.2)
  | .call p _ _ _ _, .handed l => l.map fun d => (p.ref, d)
  | .direct id _, .handed l => (r.cellAt id).toList.flatMap fun c => l.map fun d => (c.ref, d)
  | _, _ => []

/-- What an observer knows of a run. -/
structure RObs where
  r : Registry
  asked : List (Nat × AOp) := []
  received : List (Nat × AggData) := []

/-- Execute one operation, recording what was asked of and received from each aggregator. -/
def rexec (env : Env) (o : RObs) (op : RegOp) : M RObs := do
  let (resp, r) ← o.r.step env op
  .ok { r := r, asked := o.asked ++ o.r.asked op, received := o.received ++ o.r.delivered op resp }

/-- Execute a history. -/
def rexecAll (env : Env) (o : RObs) (ops : List RegOp) : M RObs := ops.foldlM (rexec env) o

/-- The entries of a log that concern one aggregator. -/
def forRef {α : Type} (k : Nat) (l : List (Nat × α)) : List α :=
  (l.filter fun p => p.1 = k).map Prod.snd

/-- Operations that enable something. -/
def RegOp.enables : RegOp → Prop
  | .enable v => v = true
  | .direct _ op => op = .enable true
  | _ => False

/-- Where an aggregator comes from: it was in `r0` under the same name, or it was built later. -/
def Origin (opt : RegistryOpts) (r0 : Registry) (nm : Name) (k : Nat) (a0 : Aggregator) : Prop :=
  (∃ c0, r0.cellOf nm = some c0 ∧ c0.ref = k ∧ c0.agg = a0) ∨
  (r0.nextRef ≤ k ∧ ∃ clk rand now, Aggregator.new opt.toAggregatorOpts clk rand now = .ok a0)

/-- Whether an operation is addressed to the aggregator of the live name `nm`: by its name, by its
id, through one of its pushers, or because it is addressed to all. -/
def RegOp.addresses (r : Registry) (nm : Name) : RegOp → Prop
  | .addId id _ _ _ _ _ => r.getName id = nm
  | .addData _ n _ _ _ => n = nm
  | .pop id => r.getName id = nm
  | .forcePop id => r.getName id = nm
  | .popAll _ _ => True
  | .call p _ _ _ _ => (r.cellOf nm).map Cell.ref = some p.ref
  | .enable _ => True
  | .del n => n = nm
  | .direct id _ => r.getName id = nm
  | _ => False

end Registry
end Wrtstat
