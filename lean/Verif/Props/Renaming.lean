/-
C135: names are only names.
-/
import Verif.Spec.RegistrySpec
import Verif.Lemmas.Shift
import Verif.Props.Scale

namespace Wrtstat

set_option autoImplicit false

open Registry

/-- A change of names: different names stay different, and the empty name stays empty. -/
structure Renaming where
  new : Name → Name
  inj : Function.Injective new
  empty : new [] = []

namespace Renaming

variable (f : Renaming)

/-- A dictionary under other names. -/
def dict (d : Dict) : Dict := { d with dict := d.dict.map fun p => (f.new p.1, p.2), index := d.index.map fun p => (p.1, f.new p.2) }

/-- A registry under other names. -/
def reg (r : Registry) : Registry := { r with dict := f.dict r.dict }

/-- A call under other names. -/
def op : RegOp → RegOp
  | .create q name now => .create q (f.new name) now
  | .addData q name clk1 clk2 rd => .addData q (f.new name) clk1 clk2 rd
  | .pusherName q name now handler => .pusherName q (f.new name) now handler
  | .del name => .del (f.new name)
  | op => op

/-- An answer under other names. -/
def resp : Resp → Resp
  | .name n => .name (f.new n)
  | .records l => .records (l.map fun p => (f.new p.1, p.2))
  | x => x

end Renaming

/-- The answers of a registry, one after the other. -/
def talk (env : Env) (r : Registry) : List RegOp → M (List Resp × Registry)
  | [] => .ok ([], r)
  | op :: ops => do
    let (x, r) ← Registry.step env r op
    let (l, r) ← talk env r ops
    .ok (x :: l, r)

/-! ### Dictionaries -/

section

variable (f : Renaming)

theorem lookup_key {β : Type} (l : List (Name × β)) (n : Name) : (l.map fun p => (f.new p.1, p.2)).lookup (f.new n) = l.lookup n := by
  induction l with
  | nil => rfl
  | cons p l ih =>
    obtain ⟨k, v⟩ := p
    rw [List.map_cons, List.lookup_cons, List.lookup_cons, ih]
    have : (f.new n == f.new k) = (n == k) := by
      by_cases h : n = k
      · subst h; simp
      · have : ¬ f.new n = f.new k := fun e => h (f.inj e)
        rw [beq_eq_false_iff_ne.2 h, beq_eq_false_iff_ne.2 this]
    rw [this]

theorem lookup_val (l : List (Nat × Name)) (n : Nat) : (l.map fun p => (p.1, f.new p.2)).lookup n = (l.lookup n).map f.new := by
  induction l with
  | nil => rfl
  | cons p l ih =>
    obtain ⟨k, v⟩ := p
    rw [List.map_cons, List.lookup_cons, List.lookup_cons, ih]
    cases n == k <;> rfl

theorem createId_renamed (d : Dict) (pick : Nat) (name : Name) :
    (f.dict d).createId pick (f.new name) = ((d.createId pick name).1, f.dict (d.createId pick name).2) := by
  have hl : ∀ id, (f.dict d).link id (f.new name) = (d.link id name).map fun p => (p.1, f.new p.2) := by
    intro id
    unfold Dict.link
    have : ((f.dict d).index.lookup id).isSome = (d.index.lookup id).isSome := by
      rw [show (f.dict d).index = d.index.map (fun p => (p.1, f.new p.2)) from rfl, lookup_val]
      cases d.index.lookup id <;> rfl
    rw [this]
    cases (d.index.lookup id).isSome <;> rfl
  unfold Dict.createId
  rw [show (f.dict d).dict = d.dict.map (fun p => (f.new p.1, p.2)) from rfl, lookup_key]
  cases d.dict.lookup name with
  | some id => rfl
  | none =>
    simp only
    rw [show (f.dict d).free = d.free from rfl]
    cases d.free[pick % d.free.length]? with
    | none => simp only [hl]; rfl
    | some id => simp only [hl]; rfl

theorem getName_renamed (d : Dict) (id : Nat) : (f.dict d).getName id = f.new (d.getName id) := by
  unfold Dict.getName
  rw [show (f.dict d).index = d.index.map (fun p => (p.1, f.new p.2)) from rfl, lookup_val]
  cases d.index.lookup id with
  | none => exact f.empty.symm
  | some n => rfl

theorem getId_renamed (d : Dict) (name : Name) : (f.dict d).getId (f.new name) = d.getId name := by
  unfold Dict.getId
  rw [show (f.dict d).dict = d.dict.map (fun p => (f.new p.1, p.2)) from rfl, lookup_key]

theorem freeId_renamed (d : Dict) (id : Nat) : (f.dict d).freeId id = ((d.freeId id).1, f.dict (d.freeId id).2) := by
  unfold Dict.freeId
  rw [show (f.dict d).index = d.index.map (fun p => (p.1, f.new p.2)) from rfl, lookup_val]
  cases d.index.lookup id with
  | none => rfl
  | some n =>
    have h1 : (d.dict.map fun p => (f.new p.1, p.2)).filter (fun p => decide (p.1 ≠ f.new n)) =
        (d.dict.filter fun p => decide (p.1 ≠ n)).map fun p => (f.new p.1, p.2) := by
      rw [List.filter_map]
      congr 1
      apply List.filter_congr
      intro p _
      simp only [Function.comp, ne_eq, f.inj.eq_iff]
    have h2 : (d.index.map fun p => (p.1, f.new p.2)).filter (fun p => decide (p.1 ≠ id)) =
        (d.index.filter fun p => decide (p.1 ≠ id)).map fun p => (p.1, f.new p.2) := by
      rw [List.filter_map]
      rfl
    simp only [Option.map_some, Renaming.dict, h1, h2]

/-! ### Calls -/

theorem createAggregator_renamed (env : Env) (r : Registry) (q : Ask) (name : Name) (now : Int) :
    (f.reg r).createAggregator env q (f.new name) now = (r.createAggregator env q name now).map fun p => (p.1, f.reg p.2) := by
  unfold createAggregator
  by_cases hn : name = []
  · subst hn
    rw [f.empty]
    simp only [if_true]
    rfl
  · rw [if_neg hn, if_neg (fun e => hn (f.inj (e.trans f.empty.symm)))]
    simp only [show (f.reg r).dict = f.dict r.dict from rfl, createId_renamed]
    have hp : ∀ d : Dict, ∀ id, (f.dict d).id2pos id = d.id2pos id := fun _ _ => rfl
    simp only [hp]
    cases hx : (r.dict.createId q.pick name).2.id2pos (r.dict.createId q.pick name).1 with
    | error e => rfl
    | ok pos =>
      simp only [bind_ok]
      rw [show (f.reg r).agarr = r.agarr from rfl]
      cases r.agarr[pos]?.join with
      | some c => rfl
      | none =>
        simp only
        have hc : construct env { opt := (f.reg r).opt, dict := f.dict (r.dict.createId q.pick name).2, agarr := r.agarr,
                                    enabled := (f.reg r).enabled, hasInit := (f.reg r).hasInit, nextRef := (f.reg r).nextRef } q now =
            construct env { r with dict := (r.dict.createId q.pick name).2 } q now := rfl
        rw [hc]
        cases construct env { r with dict := (r.dict.createId q.pick name).2 } q now with
        | error e => rfl
        | ok a => rfl

theorem getAggregator_renamed (r : Registry) (id : Nat) : (f.reg r).getAggregator id = r.getAggregator id := rfl

theorem popStep_renamed (env : Env) (force : Bool) (clk : Nat → Int) (r : Registry) (l : List (Name × AggData)) (i : Nat) :
    popStep env force clk (f.reg r, l.map fun p => (f.new p.1, p.2)) i =
      (popStep env force clk (r, l) i).map fun p => (f.reg p.1, p.2.map fun p => (f.new p.1, p.2)) := by
  unfold popStep
  simp only [show (f.reg r).dict = f.dict r.dict from rfl]
  have hp : (f.dict r.dict).pos2id i = r.dict.pos2id i := rfl
  rw [hp]
  cases r.dict.pos2id i with
  | error e => rfl
  | ok id =>
    simp only [bind_ok, getAggregator_renamed]
    cases r.getAggregator id with
    | error e => rfl
    | ok o =>
      cases o with
      | none => rfl
      | some c =>
        simp only [bind_ok]
        cases c.agg.separate env (clk id) 0 false force with
        | error e => rfl
        | ok p =>
          obtain ⟨_, _, a⟩ := p
          simp only [bind_ok]
          cases (if force = true then a.forcePop env else .ok a.pop : M (Option AggData × Aggregator)) with
          | error e => rfl
          | ok p =>
            obtain ⟨d, a⟩ := p
            simp only [bind_ok, getName_renamed, Except.map, List.map_append, List.map_map]
            rfl

theorem popAll_renamed (env : Env) (force : Bool) (clk : Nat → Int) (r : Registry) :
    (f.reg r).popAll env force clk = (r.popAll env force clk).map fun p => (p.1.map fun p => (f.new p.1, p.2), f.reg p.2) := by
  have key : ∀ (is : List Nat) (r : Registry) (l : List (Name × AggData)),
      is.foldlM (popStep env force clk) (f.reg r, l.map fun p => (f.new p.1, p.2)) =
        (is.foldlM (popStep env force clk) (r, l)).map fun p => (f.reg p.1, p.2.map fun p => (f.new p.1, p.2)) := by
    intro is
    induction is with
    | nil => intro r l; rfl
    | cons i is ih =>
      intro r l
      rw [List.foldlM_cons, List.foldlM_cons, popStep_renamed]
      cases popStep env force clk (r, l) i with
      | error e => rfl
      | ok p => obtain ⟨r1, l1⟩ := p; exact ih r1 l1
  unfold popAll
  have := key (List.range r.agarr.length) r []
  rw [show (f.reg r).agarr = r.agarr from rfl]
  rw [List.map_nil] at this
  rw [this]
  cases (List.range r.agarr.length).foldlM (popStep env force clk) (r, []) with
  | error e => rfl
  | ok p => rfl

/-- Every call answers under other names what it answers. -/
theorem step_renamed (env : Env) (r : Registry) (op : RegOp) :
    Registry.step env (f.reg r) (f.op op) = (Registry.step env r op).map fun p => (f.resp p.1, f.reg p.2) := by
  cases op with
  | create q name now =>
    simp only [Renaming.op, Registry.step, createAggregator_renamed]
    cases r.createAggregator env q name now <;> rfl
  | addId id clk1 clk2 now v count =>
    simp only [Renaming.op, Registry.step]
    unfold addId
    rw [getAggregator_renamed]
    cases r.getAggregator id with
    | error e => rfl
    | ok o =>
      cases o with
      | none => rfl
      | some c =>
        simp only [bind_ok]
        cases c.agg.add env clk1 clk2 now (.one v count) <;> rfl
  | addData q name clk1 clk2 rd =>
    simp only [Renaming.op, Registry.step]
    unfold addData
    rw [createAggregator_renamed]
    cases r.createAggregator env q name rd.ts with
    | error e => rfl
    | ok p =>
      obtain ⟨id, r1⟩ := p
      simp only [Except.map, bind_ok, getAggregator_renamed]
      cases r1.getAggregator id with
      | error e => rfl
      | ok o =>
        cases o with
        | none => rfl
        | some c =>
          simp only [bind_ok]
          cases c.agg.add env clk1 clk2 rd.ts (.reduced rd) <;> rfl
  | pop id =>
    simp only [Renaming.op, Registry.step]
    unfold Registry.pop
    rw [getAggregator_renamed]
    cases r.getAggregator id with
    | error e => rfl
    | ok o => cases o <;> rfl
  | forcePop id =>
    simp only [Renaming.op, Registry.step]
    unfold Registry.forcePop
    rw [getAggregator_renamed]
    cases r.getAggregator id with
    | error e => rfl
    | ok o =>
      cases o with
      | none => rfl
      | some c =>
        simp only [bind_ok]
        cases c.agg.forcePop env <;> rfl
  | popAll force clk =>
    simp only [Renaming.op, Registry.step, popAll_renamed]
    cases r.popAll env force clk <;> rfl
  | getName id =>
    simp only [Renaming.op, Registry.step, Registry.getName]
    rw [show (f.reg r).dict = f.dict r.dict from rfl, getName_renamed]
    rfl
  | setInit v => rfl
  | pusherId id handler =>
    simp only [Renaming.op, Registry.step]
    unfold pusherId
    rw [getAggregator_renamed]
    cases r.getAggregator id <;> rfl
  | pusherName q name now handler =>
    simp only [Renaming.op, Registry.step]
    unfold pusherName
    rw [createAggregator_renamed]
    cases r.createAggregator env q name now with
    | error e => rfl
    | ok p =>
      obtain ⟨id, r1⟩ := p
      simp only [Except.map, bind_ok]
      unfold pusherId
      rw [getAggregator_renamed]
      cases r1.getAggregator id <;> rfl
  | call p clk1 clk2 ts x =>
    simp only [Renaming.op, Registry.step]
    unfold Registry.call
    rw [show (f.reg r).find p.ref = r.find p.ref from rfl]
    cases r.find p.ref with
    | none => rfl
    | some a =>
      simp only
      cases p.p.call env a clk1 clk2 ts x <;> rfl
  | enable v => rfl
  | del name =>
    simp only [Renaming.op, Registry.step]
    unfold del
    simp only [show (f.reg r).dict = f.dict r.dict from rfl, getId_renamed, freeId_renamed]
    by_cases hb : r.dict.getId name = badId
    · rw [if_pos hb, if_pos hb]; rfl
    · rw [if_neg hb, if_neg hb]
      rw [show (f.dict r.dict).id2pos (r.dict.getId name) = r.dict.id2pos (r.dict.getId name) from rfl]
      cases r.dict.id2pos (r.dict.getId name) with
      | error e => rfl
      | ok pos =>
        simp only [bind_ok, show (f.reg r).agarr = r.agarr from rfl]
        by_cases hl : pos < r.agarr.length
        · rw [if_pos hl, if_pos hl]; rfl
        · rw [if_neg hl, if_neg hl]; rfl
  | direct id op =>
    simp only [Renaming.op, Registry.step]
    rw [getAggregator_renamed]
    cases r.getAggregator id with
    | error e => rfl
    | ok o =>
      cases o with
      | none => rfl
      | some c =>
        simp only [bind_ok]
        cases Aggregator.exec env { a := c.agg } op <;> rfl

end

theorem talk_renamed (f : Renaming) (env : Env) (ops : List RegOp) :
    ∀ r : Registry, talk env (f.reg r) (ops.map f.op) = (talk env r ops).map fun p => (p.1.map f.resp, f.reg p.2) := by
  induction ops with
  | nil => intro r; rfl
  | cons op ops ih =>
    intro r
    rw [List.map_cons, talk, step_renamed, talk]
    cases Registry.step env r op with
    | error e => rfl
    | ok p =>
      obtain ⟨x, r1⟩ := p
      simp only [Except.map, bind_ok]
      rw [ih]
      cases talk env r1 ops <;> rfl

/-- The same calls under other names get the same answers under these names: ids, flags, records and their order, pushers, faults. -/
theorem C135_names (env : Env) (opt : RegistryOpts) (f : Renaming) (ops : List RegOp) :
    (talk env (Registry.new opt) (ops.map f.op)).map Prod.fst = ((talk env (Registry.new opt) ops).map Prod.fst).map (List.map f.resp) := by
  have := talk_renamed f env ops (Registry.new opt)
  rw [show f.reg (Registry.new opt) = Registry.new opt from rfl] at this
  rw [this]
  cases talk env (Registry.new opt) ops <;> rfl

/-- Exclamation marks after every name but the empty one. -/
def exLoud : Renaming where
  new n := if n = [] then [] else '!' :: n
  inj := by
    intro a b h
    by_cases ha : a = [] <;> by_cases hb : b = [] <;> simp_all
  empty := rfl

/-- Two names, one deleted and made anew. -/
example : (talk exactEnv (Registry.new { limit := 4, levels := 2, step := 10, resolution := .none })
      ([.create {} ['a'] 1000, .create {} ['b'] 1000, .del ['a'], .create {} ['c'] 1000, .getName 1, .addId 1 0 0 1001 5 1,
        .popAll true (fun _ => 1002)].map exLoud.op)).toOption.map (fun p => (p.1.take 6, p.1.length)) =
    some ([.id 1, .id 2, .bool false, .id 1, .name ['!', 'c'], .bool true], 7) := by decide +kernel

end Wrtstat
