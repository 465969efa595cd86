/-
`basic_packer::pushout` (basic_packer.cpp:24-50) with a handler that may throw.

The handler is given by whether it throws, for the batches it has been given in this call so far, the present one last.  A
moved-from `std::string` or `std::vector` is empty (libstdc++); the numbers of a moved-from request stay.
-/
import Verif.Model.Packer

namespace Wrtstat

set_option autoImplicit false

/-- What is left of a request after `std::move(*p.second.first)` (basic_packer.cpp:41): `request::push` has the implicit move
constructor (api/push.hpp:10-16). -/
def PushRequest.gutted (p : PushRequest) : PushRequest := { name := [], ag := { p.ag with data := [] } }

namespace Packer

/-- Where the handler threw: not at all, in the loop, on the batch of what is left. -/
inductive Thrown where
  | no
  | batch
  | rest
deriving DecidableEq, Repr

/-- The first loop of `pushout` (basic_packer.cpp:29-34). -/
def popAllX (J : Json) (thr : List MultiPush → Bool) : Nat → Packer → List MultiPush → M (Bool × List MultiPush × Packer)
  | 0, _, _ => .error .diverge
  | fuel + 1, pk, out => do
    let (r, pk) ← multiPop J pk
    match r with
    | none => .ok (false, out, pk)
    | some b => if thr (out ++ [b]) = true then .ok (true, out ++ [b], pk) else popAllX J thr fuel pk (out ++ [b])

/-- `pushout()` (basic_packer.cpp:24-50): where it threw, the result (if it did not), the batches given to the handler and the
packer afterwards. -/
def pushoutX (J : Json) (pk : Packer) (thr : List MultiPush → Bool) : M (Thrown × Nat × List MultiPush × Packer) :=
  if pk.handler = false then .ok (.no, 0, [], pk)
  else do
    let (t, out, pk) ← popAllX J thr (pk.top.length + 1) pk []
    if t = true then .ok (.batch, 0, out, pk)
    else do
      let last ← leftover pk.top
      if last ≠ [] ∧ thr (out ++ last) = true then
        .ok (.rest, 0, out ++ last, { pk with top := pk.top.map fun t => { t with req := t.req.gutted } })
      else .ok (.no, out.length, out ++ last, { pk with top := [] })

end Packer
end Wrtstat
