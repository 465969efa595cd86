/-
The unit tests of the repository for the packer (tests/packer_suite.cpp), run on the model with the string lengths and the integer
reader of `Verif/Model/PackerInstances.lean`.

`basic_packer1` and `basic_packer2` push 1000 requests with random samples; here fewer, with the samples given.
-/
import Verif.Model.PackerInstances

namespace Wrtstat
namespace Suite

set_option autoImplicit false

/-- A request with a name and samples. -/
def named (n : String) (data : List Int := []) : PushRequest := { name := n.toList, ag := { data := data } }

/-- The names and the legend of a batch after `recompact`. -/
def recompacted (sep : String) (legend names : List String) : Option (List String × List String) :=
  match recompact exWjson { sep := sep.toList, legend := legend.map String.toList, data := names.map fun n => named n } with
  | .ok (true, m) => some (m.data.map fun p => String.ofList p.name, m.legend.map String.ofList)
  | _ => none

/-- `packer_recompact1` (tests/packer_suite.cpp:9-23). -/
example : recompacted "~~" ["name1", "name2", "name3"] ["0~1~2", "2~1~0"] =
    some (["name1~~name2~~name3", "name3~~name2~~name1"], []) := by decide +kernel

/-- `packer_recompact2` (tests/packer_suite.cpp:25-42). -/
example : recompacted "~~" ["name", "name3", "name2", " name ", "name1", "xname"] ["1~2~4", "4~2~1", "5~4~3~2~1~0"] =
    some (["name3~~name2~~name1", "name1~~name2~~name3", "xname~~name1~~ name ~~name2~~name3~~name"], []) := by decide +kernel

/-- The name and the legend of a batch of one after `compact`. -/
def compacted (name : String) : Option (String × List String) :=
  match compact { sep := ['~', '~'], legend := [], data := [named name] } with
  | .ok (_, m) => (m.data.head?).map fun p => (String.ofList p.name, m.legend.map String.ofList)
  | _ => none

/-- `packer_compact1` (tests/packer_suite.cpp:44-114). -/
example : compacted "" = some ("0", [""]) ∧ compacted "name1" = some ("0", ["name1"]) ∧
    compacted "name1~~name2~~name3" = some ("0~1~2", ["name1", "name2", "name3"]) ∧
    compacted "~~name1~~name2~~name3~~" = some ("0~1~2~3~0", ["", "name1", "name2", "name3"]) ∧
    compacted "~~name~1~~name~2~~name~3~~" = some ("0~1~2~3~0", ["", "name~1", "name~2", "name~3"]) ∧
    recompacted "~~" ["", "name~1", "name~2", "name~3"] ["0~1~2~3~0"] = some (["~~name~1~~name~2~~name~3~~"], []) ∧
    compacted "~~~~~~~" = some ("0~0~0~1", ["", "~"]) ∧
    recompacted "~~" ["", "~"] ["0~0~0~1"] = some (["~~~~~~~"], []) := by decide +kernel

/-- `push_top1` (tests/packer_suite.cpp:116-151): the names popped for the given sizes. -/
def pushTop1 : M (List (Option PName)) := do
  let pk := Packer.new { jsonCompact := true } false
  let pk ← Packer.multiPush exJson pk [named "1", named "22", named "333"]
  let (a, pk) ← pk.popByJsonSize 32
  let (b, pk) ← pk.popByJsonSize 31
  let (c, _) ← pk.popByJsonSize 30
  .ok ([a, b, c].map fun t => t.map fun t => t.req.name)

example : (match pushTop1 with
    | .ok l => decide (l = [some "333".toList, some "22".toList, some "1".toList])
    | .error _ => false) = true := by decide +kernel

/-- Samples for the tests below. -/
def samples (i : Nat) : List Int := (List.range (1 + i * 7 % 9)).map fun (j : Nat) => ((i + 1) * (j + 1) * 123456789 % 2147483648 : Nat)

/-- `basic_packer1` (tests/packer_suite.cpp:153-199) with `n` requests. -/
def basicPacker1 (n : Nat) : M Bool := do
  let pk := Packer.new { jsonLimit := 512, pushLimit := 10, dataLimit := 10, jsonCompact := true } true
  let pk ← Packer.multiPush exJson pk ((List.range n).map fun i => named ("name" ++ toString i) (samples i))
  let full := !pk.empty
  let (total3, out, pk) ← pk.pushout exJson
  .ok (full && pk.empty && (out.map fun m => m.data.length).sum == n && out.length == total3)

/-- `basic_packer2` (tests/packer_suite.cpp:201-257) with `n` requests: every batch fits. -/
def basicPacker2 (n : Nat) : M Bool := do
  let pk := Packer.new { jsonLimit := 1024, pushLimit := 0, dataLimit := 0, jsonCompact := true, nameCompact := true } true
  let pk ← Packer.multiPush exJson pk ((List.range n).map fun i => named ("service~~server~~name" ++ toString i) (samples i))
  let full := !pk.empty
  let (out, pk) ← pk.popAll exJson (n + 1) []
  .ok (full && pk.empty && out.all fun m => exJson.multiSize true m ≤ 1024)

example : (match basicPacker1 30, basicPacker2 30 with
    | .ok a, .ok b => a && b
    | _, _ => false) = true := by decide +kernel

end Suite
end Wrtstat
