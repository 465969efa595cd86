/-
What a user of the packer does and sees.
-/
import Verif.Model.Packer

namespace Wrtstat

set_option autoImplicit false

namespace Packer

/-- The requests held by the packer. -/
def contents (pk : Packer) : List PushRequest := pk.top.map fun t => t.req

/-- Calls of the packer. -/
inductive PackOp where
  | push (req : PushRequest)
  | multiPush (m : MultiPush)
  | popSize (n : Nat)
  | multiPop
  | pushout

/-- The packer, what was pushed into it, and what came out of it: batches and single requests. -/
structure PObs where
  pk : Packer
  pushed : List PushRequest := []
  batches : List MultiPush := []
  popped : List PushRequest := []

/-- One call. -/
def pexec (J : Json) (o : PObs) : PackOp → M PObs
  | .push req => do
    let pk ← push J o.pk req
    .ok { o with pk := pk, pushed := o.pushed ++ [req] }
  | .multiPush m => do
    let pk ← multiPush J o.pk m.data
    .ok { o with pk := pk, pushed := o.pushed ++ m.data }
  | .popSize n => do
    let (r, pk) ← popByJsonSize o.pk n
    .ok { o with pk := pk, popped := o.popped ++ (r.map fun t => t.req).toList }
  | .multiPop => do
    let (r, pk) ← multiPop J o.pk
    .ok { o with pk := pk, batches := o.batches ++ r.toList }
  | .pushout => do
    let (_, out, pk) ← pushout J o.pk
    .ok { o with pk := pk, batches := o.batches ++ out }

/-- A sequence of calls. -/
def pexecAll (J : Json) : PObs → List PackOp → M PObs
  | o, [] => .ok o
  | o, op :: ops => do
    let o ← pexec J o op
    pexecAll J o ops

end Packer

/-- The receiver of a batch restores these requests from it. -/
def Restores (W : Wjson) (b : MultiPush) (l : List PushRequest) : Prop :=
  recompact W b = .ok (true, { b with legend := [], data := l })

end Wrtstat
