/-
Client histories of a multi aggregator, and what they are for one name.
-/
import Verif.Spec.AggregatorSpec
import Verif.Model.Multi

namespace Wrtstat

/-! ### One name

The life of a name: an aggregator that is built by the first push and dropped by `del`. -/

namespace Single

open Aggregator (AObs AOp)

/-- What happens to a name. -/
inductive NOp where
  /-- a push; `seen` says whether its answer is returned -/
  | push (v : ReducedData) (clk rand clk1 clk2 : Int) (seen : Bool)
  | del
  | pop (force : Bool)

/-- What is known of a name: the observation of its aggregator since it was built, if it exists; all
that was delivered; the answers returned. -/
structure NObs where
  life : Option AObs := none
  delivered : List AggData := []
  answers : List Bool := []

/-- The aggregator a push goes to. -/
def born (opt : AggregatorOpts) (o : Option AObs) (clk rand ts : Int) : M AObs :=
  match o with
  | some ao => .ok ao
  | none => (Aggregator.new opt clk rand ts).map fun a => { a := a }

/-- One step of the life of a name, in terms of a single aggregator. -/
def nexec (env : Env) (opt : AggregatorOpts) (o : NObs) : NOp → M NObs
  | .push v clk rand clk1 clk2 seen => do
    let ao ← born opt o.life clk rand v.ts
    let (ok, out, _) ← ao.a.push env clk1 clk2 v.ts (.reduced v) true
    let ao' ← Aggregator.exec env ao (.push clk1 clk2 v.ts (.reduced v) true)
    .ok { life := some ao', delivered := o.delivered ++ out.map AggData.asReduced,
          answers := o.answers ++ if seen then [ok] else [] }
  | .del => .ok { o with life := none, answers := o.answers ++ [o.life.isSome] }
  | .pop force =>
    match o.life with
    | none => .ok o
    | some ao => do
      let ao' ← Aggregator.exec env ao (if force then .forcePop else .pop)
      .ok { o with life := some ao', delivered := o.delivered ++ ao'.received.drop ao.received.length }

/-- A life. -/
def nexecAll (env : Env) (opt : AggregatorOpts) (o : NObs) (ops : List NOp) : M NObs := ops.foldlM (nexec env opt) o

end Single

namespace Multi

open Single (NOp)

/-- Client operations. -/
inductive MOp where
  | push (p : PushArg) (handler : Bool)
  | multiPush (ps : List PushArg) (handler : Bool)
  | del (name : Name)
  | pushout (force handler : Bool) (ord : IterOrder)

/-- What an observer knows of a run: the object, the requests handed to handlers, and the answers of
`push` and `del`, with the name they are about. -/
structure MObs where
  m : Multi
  delivered : List PushReq := []
  answers : List (Name × Bool) := []

/-- Execute an operation. -/
def mexec (env : Env) (o : MObs) : MOp → M MObs
  | .push p handler => do
    let (ok, l, m) ← o.m.push env p.name p.v p.clk p.rand p.clk1 p.clk2 handler
    .ok { m := m, delivered := o.delivered ++ l, answers := o.answers ++ [(p.name, ok)] }
  | .multiPush ps handler => do
    let (l, m) ← multiPush env handler ps o.m
    .ok { o with m := m, delivered := o.delivered ++ l }
  | .del name => do
    let (b, m) ← o.m.del name
    .ok { o with m := m, answers := o.answers ++ [(name, b)] }
  | .pushout force handler ord => do
    let (l, m) ← o.m.popAll env force handler ord
    .ok { o with m := m, delivered := o.delivered ++ l }

/-- Execute a history. -/
def mexecAll (env : Env) (o : MObs) (ops : List MOp) : M MObs := ops.foldlM (mexec env) o

/-- What an operation is for one name. -/
def MOp.forName (name : Name) : MOp → List NOp
  | .push p _ => if p.name = name then [.push p.v p.clk p.rand p.clk1 p.clk2 true] else []
  | .multiPush ps _ => (ps.filter fun p => p.name = name).map fun p => .push p.v p.clk p.rand p.clk1 p.clk2 false
  | .del n => if n = name then [.del] else []
  | .pushout force _ _ => [.pop force]

/-- What a history is for one name. -/
def forName (name : Name) (ops : List MOp) : List NOp := ops.flatMap (MOp.forName name)

/-- The part of a log about one name. -/
def about {α : Type} (name : Name) (l : List (Name × α)) : List α := (l.filter fun p => p.1 = name).map Prod.snd

/-- The aggregator of a name, wherever it is. -/
def find (m : Multi) (name : Name) : Option Aggregator := m.shards.findSome? fun s => s.lookup name

end Multi
end Wrtstat
