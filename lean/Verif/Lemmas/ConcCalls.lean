/-
The registry used by several threads, call by call: each call did what it should to aggregators it should.
-/
import Verif.Lemmas.ConcLog

namespace Wrtstat
namespace Registry

set_option autoImplicit false

open Aggregator (AOp AObs Trans)

section
variable {T : Type}

/-! ### Names and ids of the aggregators -/

/-- Live aggregators are where the name and the id they were created for say. -/
structure Named (opt : RegistryOpts) (s : CReg T) : Prop where
  rinv : RInv opt s.r.nextRef s.r
  live : ∀ (p : Nat) (c : Cell), s.r.agarr[p]? = some (some c) → ∃ nm id, s.born[c.ref]? = some (nm, id) ∧
    (nm, id) ∈ s.r.dict.dict ∧ posOf opt.idStep (opt.idInit % opt.idStep) id = p
  ids : ∀ e ∈ s.born, IdOk opt e.2

theorem RInv.congr {opt : RegistryOpts} {n : Nat} {r r' : Registry} (h : RInv opt n r) (arr : r'.agarr = r.agarr)
    (next : r'.nextRef = r.nextRef) (dict : r'.dict = r.dict) (ropt : r'.opt = r.opt) : RInv opt n r' := by
  cases r; cases r'
  simp only at arr next dict ropt
  subst arr next dict ropt
  exact ⟨h.ropt, h.step, h.res, h.cle, h.idx, h.names, h.ids, h.nonempty, h.free, h.disj, h.form, h.occ, h.live, h.refs, h.refLt,
    h.alive, h.len⟩

theorem CEff.next {env : Env} {s s' : CReg T} {t : T} (hu : Uniq s.r) (h : CEff env t s s') : s.r.nextRef ≤ s'.r.nextRef := by
  cases h with
  | same arr next => omega
  | create q name now id h => exact (create_grows hu h).1.next
  | del name b h => exact (del_grows hu h).next
  | agg k a a' ops out ha ht hr => rw [hr]; exact Nat.le_refl _

theorem Serial.alive {env : Env} {opt : AggregatorOpts} {s : CReg T} (h : Serial env opt s) {k : Nat} {a : Aggregator}
    (ha : s.aggOf k = some a) : a.alive = true := by
  obtain ⟨q, now, a0, bs, rest, h1, -, -, -, h5⟩ := h.life k a ha
  rw [Aggregator.trans_alive h5]
  unfold Aggregator.new at h1
  obtain ⟨s, _, h5⟩ := bind_inv h1
  cases h5
  rfl

theorem getElem?_prefix {α : Type} {l l' : List α} {i : Nat} {x : α} (h : l[i]? = some x) : (l ++ l')[i]? = some x := by
  rw [List.getElem?_append_left (List.getElem?_eq_some_iff.1 h).1]
  exact h

theorem Named.eff {env : Env} {opt : RegistryOpts} {s s' : CReg T} {t : T} (hser : Serial env opt.toAggregatorOpts s)
    (hr : Room opt s'.r.nextRef) (h : Named opt s) (he : CEff env t s s') : Named opt s' := by
  have hn := he.next hser.uniq
  have hr0 : Room opt s.r.nextRef := hr.mono hn
  cases he with
  | same arr next dict ropt gone born log out =>
    refine ⟨by rw [next]; exact h.rinv.congr arr next dict ropt, ?_, by rw [born]; exact h.ids⟩
    rw [arr, dict, born]; exact h.live
  | create q name now id hc free gone born log out =>
    rcases create_cases h.rinv hr0 hc with ⟨-, -, e⟩ | ⟨-, e⟩ | ⟨h0, h1, cr, hi⟩
    · rw [if_pos (by rw [e]), List.append_nil] at born
      refine ⟨by rw [e]; exact h.rinv, ?_, by rw [born]; exact h.ids⟩
      rw [e, born]; exact h.live
    · rw [if_pos (by rw [e]), List.append_nil] at born
      refine ⟨by rw [e]; exact h.rinv, ?_, by rw [born]; exact h.ids⟩
      rw [e, born]; exact h.live
    · have hnx := cr.next
      rw [if_neg (by omega)] at born
      refine ⟨by rw [hnx]; exact hi, ?_, ?_⟩
      · intro p c hp
        rw [born, cr.dict]
        by_cases hpp : p = posOf opt.idStep (opt.idInit % opt.idStep) id
        · obtain ⟨a0, a, -, -, hcell⟩ := cr.cell
          rw [hpp, hcell] at hp
          cases hp
          refine ⟨name, id, ?_, List.mem_cons_self, hpp.symm⟩
          rw [← hser.born]
          simp
        · obtain ⟨nm, id', h1, h2, h3⟩ := h.live p c ((cr.others p c hpp).1 hp)
          exact ⟨nm, id', getElem?_prefix h1, List.mem_cons_of_mem _ h2, h3⟩
      · rw [born]
        intro e he
        rcases List.mem_append.1 he with he | he
        · exact h.ids e he
        · rw [List.mem_singleton] at he
          subst he
          obtain ⟨f1, f2⟩ := hi.id_form (nm := name) (id := id) (by rw [cr.dict]; exact List.mem_cons_self)
          have hb := hi.bound (by rw [← hnx]; exact hr)
          exact .inr ⟨f1, by simp only; omega⟩
  | del name b hd free gone born log out =>
    rcases (del_cases h.rinv hr0 hd).2 with ⟨-, e⟩ | ⟨id, hm, hi, hdict, -, -, -, hnx, harr⟩
    · refine ⟨by rw [e]; exact h.rinv, ?_, by rw [born]; exact h.ids⟩
      rw [e, born]; exact h.live
    · refine ⟨by rw [hnx]; exact hi, ?_, by rw [born]; exact h.ids⟩
      intro p c hp
      rw [harr] at hp
      obtain ⟨h1, h2⟩ := set_none_get hp
      obtain ⟨nm, id', h3, h4, h5⟩ := h.live p c h2
      rw [born, hdict]
      refine ⟨nm, id', h3, List.mem_filter.2 ⟨h4, ?_⟩, h5⟩
      simp only [ne_eq, decide_not, Bool.not_eq_eq_eq_not, Bool.not_true, decide_eq_false_iff_not]
      rintro rfl
      rw [h.rinv.name_eq h4 hm] at h5
      exact h1 h5.symm
  | agg k a a' ops out ha ht hrr gone born log hout =>
    have hnx : s'.r.nextRef = s.r.nextRef := by rw [hrr]; rfl
    have hdict : s'.r.dict = s.r.dict := by rw [hrr]; rfl
    have back : ∀ (p : Nat) (c : Cell), s'.r.agarr[p]? = some (some c) → ∃ c0, s.r.agarr[p]? = some (some c0) ∧ c.ref = c0.ref := by
      intro p c hp
      rw [hrr] at hp
      obtain ⟨c0, h0, e0, -⟩ := update_get_some hp
      exact ⟨c0, h0, e0.symm⟩
    refine ⟨?_, ?_, by rw [born]; exact h.ids⟩
    · rw [hnx]
      by_cases hx : ∃ b, At s.r k b
      · obtain ⟨b, p, hp⟩ := hx
        have : b = a := by
          have := agg_at hser.uniq ⟨p, hp⟩
          rw [ha] at this
          cases this; rfl
        subst this
        rw [hrr]
        exact (seff_update h.rinv hp ht).inv h.rinv
      · rw [hrr, update_noref fun b hb => hx ⟨b, hb⟩]
        exact h.rinv
    · intro p c hp
      obtain ⟨c0, h0, e0⟩ := back p c hp
      rw [born, hdict, e0]
      exact h.live p c0 h0

theorem named_new (opt : RegistryOpts) : Named opt (CReg.init (Registry.new opt) : CReg T) := by
  refine ⟨rinv_new opt, ?_, ?_⟩
  · intro p c h
    simp [CReg.init, Registry.new] at h
  · simp [CReg.init]

/-- What `get_aggregator` finds is the aggregator created for that id. -/
theorem Named.got {opt : RegistryOpts} {s : CReg T} (h : Named opt s) (hr : Room opt s.r.nextRef) {id : Nat} (hid : IdOk opt id) {c : Cell}
    (hc : s.r.getAggregator id = .ok (some c)) : ∃ nm, s.born[c.ref]? = some (nm, id) ∧ (nm, id) ∈ s.r.dict.dict := by
  rw [h.rinv.get_eq hr hid] at hc
  obtain ⟨nm, hm, -, hp⟩ := h.rinv.cellAt_some hr (Except.ok.inj hc)
  obtain ⟨nm', id', h1, h2, h3⟩ := h.live _ c hp
  have := posOf_inj (h.rinv.id_form h2).1 (h.rinv.id_form hm).1 h3
  subst this
  exact ⟨nm', h1, h2⟩

/-- The id of a name in the dictionary is the one of an aggregator created for that name. -/
theorem Named.of_dict {opt : RegistryOpts} {s : CReg T} (h : Named opt s) {nm : Name} {id : Nat}
    (hm : (nm, id) ∈ s.r.dict.dict) : ∃ j : Nat, s.born[j]? = some (nm, id) := by
  obtain ⟨c, hc⟩ := h.rinv.live nm id hm
  obtain ⟨nm', id', h1, h2, h3⟩ := h.live _ c hc
  have := posOf_inj (h.rinv.id_form h2).1 (h.rinv.id_form hm).1 h3
  subst this
  obtain rfl := h.rinv.id_eq h2 hm
  exact ⟨c.ref, h1⟩

/-- Creating gives `bad_id`, or the id of an aggregator created for that name. -/
theorem Named.created {env : Env} {opt : RegistryOpts} {s s' : CReg T} (h : Named opt s) (h' : Named opt s') (hr : Room opt s'.r.nextRef) {q : Ask} {name : Name} {now : Int} {id : Nat}
    (hc : s.r.createAggregator env q name now = .ok (id, s'.r)) (hle : s.r.nextRef ≤ s'.r.nextRef)  :
    id = badId ∨ ∃ j : Nat, s'.born[j]? = some (name, id) := by
  rcases create_cases h.rinv (hr.mono hle) hc with ⟨-, e, -⟩ | ⟨h1, e⟩ | ⟨h0, h1, cr, hi⟩
  · exact .inl e
  · exact .inr (h'.of_dict (by rw [e]; exact h1))
  · exact .inr (h'.of_dict (by rw [cr.dict]; exact List.mem_cons_self))

/-! ### What a call has done so far -/

/-- After creating: the id is that of an aggregator created for the name. -/
def Aim (born : List (Name × Nat)) (id : Nat) : RegOp → Prop
  | .addData _ nm .. => id = badId ∨ ∃ j : Nat, born[j]? = some (nm, id)
  | .pusherName _ nm .. => id = badId ∨ ∃ j : Nat, born[j]? = some (nm, id)
  | _ => False

/-- What thread `t`, being at some place in its code, has asked of aggregators in its call, and got from them. -/
def Prog (env : Env) (opt : RegistryOpts) (s : CReg T) (t : T) : CPc → List (Nat × AOp) → List (Nat × AggData) → Prop
  | .idle, l, o => l = [] ∧ o = []
  | .want _, l, o => l = [] ∧ o = []
  | .named op id, l, o => l = [] ∧ o = [] ∧ Aim s.born id op
  | .have op k, l, o => l = [] ∧ o = [] ∧ Right opt s.born k op
  | .sweep force clk _ acc, l, o => t ∈ s.readers ∧ ∃ vs : List Visit, (∀ v ∈ vs, s.born[v.k]? = some (v.nm, v.id)) ∧
      l = vs.flatMap (Visit.ops force clk) ∧ o = vs.flatMap Visit.outs ∧ acc = vs.flatMap Visit.named
  | .swept force clk _ id k acc, l, o => t ∈ s.readers ∧ ∃ (vs : List Visit) (nm : Name),
      (∀ v ∈ vs, s.born[v.k]? = some (v.nm, v.id)) ∧ s.born[k]? = some (nm, id) ∧ (∃ a, At s.r k a) ∧
      l = vs.flatMap (Visit.ops force clk) ++ [(k, .separate (clk id) 0 false force)] ∧ o = vs.flatMap Visit.outs ∧
      acc = vs.flatMap Visit.named
  | .enab v _, l, o => (∃ ks : List Nat, l = ks.map fun k => (k, .enable v)) ∧ o = []
  | .leave op resp, l, o => Done env opt s.born s.log t op resp l o

/-- The calls of thread `t` so far. -/
def Told [DecidableEq T] (env : Env) (opt : RegistryOpts) (s : CReg T) (t : T) : Prop :=
  ∃ (cs : List ((RegOp × Resp) × List (Nat × AOp) × List (Nat × AggData))) (l : List (Nat × AOp)) (o : List (Nat × AggData)),
    resOf t s.hist = cs.map Prod.fst ∧ askedBy t s.log = (cs.flatMap fun c => c.2.1) ++ l ∧ gotBy t s.out = (cs.flatMap fun c => c.2.2) ++ o ∧
    (∀ c ∈ cs, Done env opt s.born s.log t c.1.1 c.1.2 c.2.1 c.2.2) ∧ Prog env opt s t (s.pc t) l o

/-- What is recorded is never changed. -/
def Ext (s s' : CReg T) : Prop := (∃ b, s'.born = s.born ++ b) ∧ ∃ x, s'.log = s.log ++ x

theorem CEff.ext {env : Env} {s s' : CReg T} {t : T} (h : CEff env t s s') : Ext s s' := by
  cases h with
  | same arr next dict ropt gone born log out => exact ⟨⟨[], by rw [born, List.append_nil]⟩, [], by rw [log, List.append_nil]⟩
  | create q name now id h free gone born log out => exact ⟨⟨_, born⟩, _, log⟩
  | del name b h free gone born log out => exact ⟨⟨[], by rw [born, List.append_nil]⟩, [], by rw [log, List.append_nil]⟩
  | agg k a a' ops out ha ht hr gone born log => exact ⟨⟨[], by rw [born, List.append_nil]⟩, _, log⟩

theorem Right.mono {opt : RegistryOpts} {born b : List (Name × Nat)} {k : Nat} {op : RegOp} (h : Right opt born k op) :
    Right opt (born ++ b) k op := by
  cases op <;> first
    | exact h
    | (obtain ⟨j, id, nm', h1, h2⟩ := h; exact ⟨j, id, nm', getElem?_prefix h1, getElem?_prefix h2⟩)
    | (intro id h1 h2; obtain ⟨nm, h3⟩ := h id h1 h2; exact ⟨nm, getElem?_prefix h3⟩)

theorem Done.mono {env : Env} {opt : RegistryOpts} {born b : List (Name × Nat)} {log x : List (Option T × Nat × AOp)} {t : T} {op : RegOp}
    {resp : Resp} {l : List (Nat × AOp)} {o : List (Nat × AggData)} (h : Done env opt born log t op resp l o) :
    Done env opt (born ++ b) (log ++ x) t op resp l o := by
  cases h with
  | none op resp h => exact .none op resp h
  | missed op h => exact .missed op h
  | used op resp k pre post outs a ops o hk hlog hlife ho hg =>
    exact .used op resp k pre (post ++ x) outs a ops o hk.mono (by rw [hlog, List.append_assoc]) hlife ho hg
  | popAll force clk vs hv => exact .popAll force clk vs fun v h => getElem?_prefix (hv v h)
  | enable v ks => exact .enable v ks

theorem Aim.mono {born b : List (Name × Nat)} {id : Nat} {op : RegOp} (h : Aim born id op) : Aim (born ++ b) id op := by
  cases op <;> first
    | exact h
    | (rcases h with h | ⟨j, h⟩
       · exact .inl h
       · exact .inr ⟨j, getElem?_prefix h⟩)

theorem Prog.mono {env : Env} {opt : RegistryOpts} {s s' : CReg T} {t : T} {p : CPc} {l : List (Nat × AOp)} {o : List (Nat × AggData)}
    (h : Prog env opt s t p l o) (hx : Ext s s') (hr : t ∈ s.readers → t ∈ s'.readers)
    (hl : t ∈ s.readers → ∀ k, (∃ a, At s.r k a) → ∃ a, At s'.r k a) : Prog env opt s' t p l o := by
  obtain ⟨⟨b, hb⟩, x, hlog⟩ := hx
  cases p with
  | idle => exact h
  | want op => exact h
  | named op id => exact ⟨h.1, h.2.1, by rw [hb]; exact h.2.2.mono⟩
  | «have» op k => exact ⟨h.1, h.2.1, by rw [hb]; exact h.2.2.mono⟩
  | sweep force clk i acc =>
    obtain ⟨h1, vs, h2, h3⟩ := h
    exact ⟨hr h1, vs, by rw [hb]; exact fun v hv => getElem?_prefix (h2 v hv), h3⟩
  | swept force clk i id k acc =>
    obtain ⟨h1, vs, nm, h2, h3, h4, h5⟩ := h
    exact ⟨hr h1, vs, nm, by rw [hb]; exact fun v hv => getElem?_prefix (h2 v hv), by rw [hb]; exact getElem?_prefix h3, hl h1 k h4, h5⟩
  | enab v i => exact h
  | leave op resp =>
    show Done env opt s'.born s'.log t op resp l o
    rw [hb, hlog]
    exact Done.mono h

/-! ### Threads that do not move -/

variable [DecidableEq T]

theorem CEff.others {env : Env} {s s' : CReg T} {t u : T} (h : CEff env t s s') (hu : u ≠ t) :
    askedBy u s'.log = askedBy u s.log ∧ gotBy u s'.out = gotBy u s.out := by
  have none_ : ∀ (k : Nat) (ops : List AOp), askedBy u (ops.map fun op => ((none : Option T), k, op)) = [] := by
    intro k ops
    unfold askedBy
    rw [List.filter_eq_nil_iff.2, List.map_nil]
    intro e he
    obtain ⟨op, -, rfl⟩ := List.mem_map.1 he
    simp
  have some_ : ∀ (k : Nat) (ops : List AOp), askedBy u (ops.map fun op => (some t, k, op)) = [] := by
    intro k ops
    unfold askedBy
    rw [List.filter_eq_nil_iff.2, List.map_nil]
    intro e he
    obtain ⟨op, -, rfl⟩ := List.mem_map.1 he
    simpa using Ne.symm hu
  have out_ : ∀ (k : Nat) (l : List AggData), gotBy u (l.map fun d => (t, k, d)) = [] := by
    intro k ops
    unfold gotBy
    rw [List.filter_eq_nil_iff.2, List.map_nil]
    intro e he
    obtain ⟨op, -, rfl⟩ := List.mem_map.1 he
    simpa using Ne.symm hu
  have asked_append : ∀ l l' : List (Option T × Nat × AOp), askedBy u (l ++ l') = askedBy u l ++ askedBy u l' := by
    intro l l'; unfold askedBy; rw [List.filter_append, List.map_append]
  have got_append : ∀ l l' : List (T × Nat × AggData), gotBy u (l ++ l') = gotBy u l ++ gotBy u l' := by
    intro l l'; unfold gotBy; rw [List.filter_append, List.map_append]
  cases h with
  | same arr next dict ropt gone born log out => rw [log, out]; exact ⟨rfl, rfl⟩
  | create q name now id h free gone born log out =>
    refine ⟨?_, by rw [out]⟩
    rw [log, asked_append]
    split
    · exact List.append_nil _
    · rw [none_, List.append_nil]
  | del name b h free gone born log out => rw [log, out]; exact ⟨rfl, rfl⟩
  | agg k a a' ops out ha ht hr gone born log hout =>
    rw [log, hout, asked_append, got_append, some_, out_, List.append_nil, List.append_nil]
    exact ⟨rfl, rfl⟩

omit [DecidableEq T] in
theorem CEff.live {env : Env} {s s' : CReg T} {t u : T} (hu : Uniq s.r) (h : CEff env t s s') (hr : u ∈ s.readers) (k : Nat)
    (hk : ∃ a, At s.r k a) : ∃ a, At s'.r k a := by
  obtain ⟨a, i, hi⟩ := hk
  cases h with
  | same arr => exact ⟨a, i, by rw [arr]; exact hi⟩
  | create q name now id h =>
    obtain ⟨a', h'⟩ := (create_grows hu h).2.2 i _ hi
    exact ⟨a', i, h'⟩
  | del name b h free =>
    unfold CReg.freeW at free
    rw [Bool.and_eq_true] at free
    have := List.isEmpty_iff.1 free.2
    rw [this] at hr
    cases hr
  | agg j b a' ops out ha ht hrr =>
    rw [hrr]
    by_cases hj : k = j
    · subst hj; exact ⟨a', at_update_self a' ⟨i, hi⟩⟩
    · exact ⟨a, (at_update_ne a' a hj).2 ⟨i, hi⟩⟩

theorem goto_ne (s : CReg T) {t u : T} (p : CPc) (h : u ≠ t) : (s.goto t p).pc u = s.pc u := Function.update_of_ne h _ _

theorem goto_self (s : CReg T) (t : T) (p : CPc) : (s.goto t p).pc t = p := Function.update_self _ _ _

/-- A move of `t` seen from `u`. -/
def Aside (s s' : CReg T) (u : T) : Prop :=
  s'.pc u = s.pc u ∧ (u ∈ s.readers → u ∈ s'.readers) ∧ resOf u s'.hist = resOf u s.hist

theorem look_aside {s s' : CReg T} {t u : T} (hu : u ≠ t) {op : RegOp} {id : Nat} (h : s.look t op id = some s') : Aside s s' u := by
  unfold CReg.look at h
  split at h
  · split at h <;> cases h <;> exact ⟨goto_ne _ _ hu, fun h => h, rfl⟩
  · cases h

theorem create_aside {env : Env} {s s' : CReg T} {t u : T} (hu : u ≠ t) {q : Ask} {name : Name} {now : Int} {next : Nat → CPc}
    (h : s.create env t q name now next = some s') : Aside s s' u := by
  unfold CReg.create at h
  split at h
  · split at h
    · cases h
      exact ⟨goto_ne _ _ hu, fun h => h, rfl⟩
    · cases h
  · cases h

theorem move_aside [Fintype T] {env : Env} {s s' : CReg T} {t u : T} (hu : u ≠ t) (h : s.move env t = some s') : Aside s s' u := by
  unfold CReg.move at h
  split at h
  case h_1 => cases h
  case h_2 op hpc =>
    cases op
    case create => exact create_aside hu h
    case addData => exact create_aside hu h
    case pusherName => exact create_aside hu h
    case addId => exact look_aside hu h
    case pop => exact look_aside hu h
    case forcePop => exact look_aside hu h
    case pusherId => exact look_aside hu h
    case direct => exact look_aside hu h
    case call =>
      unfold CReg.start at h
      simp only at h
      split at h <;> cases h <;> exact ⟨goto_ne _ _ hu, fun h => h, rfl⟩
    case del name =>
      unfold CReg.start at h
      simp only at h
      split at h
      · split at h
        · cases h; exact ⟨goto_ne _ _ hu, fun h => h, rfl⟩
        · cases h
      · cases h
    case popAll =>
      unfold CReg.start at h
      simp only at h
      split at h
      · cases h; exact ⟨goto_ne _ _ hu, fun h => List.mem_cons_of_mem _ h, rfl⟩
      · cases h
    all_goals
      unfold CReg.start at h
      simp only at h
      split at h
      · cases h; exact ⟨goto_ne _ _ hu, fun h => h, rfl⟩
      · cases h
  case h_3 => exact look_aside hu h
  case h_4 op k hpc =>
    split at h
    · cases h
    · split at h
      · cases h; exact ⟨goto_ne _ _ hu, fun h => h, rfl⟩
      · cases h
  case h_5 force clk i acc hpc =>
    split at h
    · split at h
      · cases h
      · split at h
        · cases h
        · cases h; exact ⟨goto_ne _ _ hu, fun h => h, rfl⟩
        · split at h
          · cases h
          · cases h; exact ⟨goto_ne _ _ hu, fun h => h, rfl⟩
    · cases h; exact ⟨goto_ne _ _ hu, fun h => (List.mem_erase_of_ne hu).2 h, rfl⟩
  case h_6 force clk i id k acc hpc =>
    split at h
    · cases h
    · split at h
      · cases h
      · cases h; exact ⟨goto_ne _ _ hu, fun h => h, rfl⟩
  case h_7 v i hpc =>
    split at h
    · split at h <;> cases h <;> exact ⟨goto_ne _ _ hu, fun h => h, rfl⟩
    · cases h; exact ⟨goto_ne _ _ hu, fun h => h, rfl⟩
  case h_8 op resp hpc =>
    cases h
    refine ⟨goto_ne _ _ hu, fun h => h, ?_⟩
    exact (resOf_res u t s.hist op resp).trans (by rw [if_neg (Ne.symm hu), List.append_nil])

theorem Told.aside {env : Env} {opt : RegistryOpts} {s s' : CReg T} {t u : T} (hun : Uniq s.r) (h : Told env opt s u) (hu : u ≠ t)
    (he : CEff env t s s') (ha : Aside s s' u) : Told env opt s' u := by
  obtain ⟨cs, l, o, h1, h2, h3, h4, h5⟩ := h
  obtain ⟨a1, a2, a3⟩ := ha
  obtain ⟨o1, o2⟩ := he.others hu
  refine ⟨cs, l, o, a3.trans h1, o1.trans h2, o2.trans h3, ?_, ?_⟩
  · intro c hc
    obtain ⟨⟨b, hb⟩, x, hx⟩ := he.ext
    rw [hb, hx]
    exact (h4 c hc).mono
  · rw [a1]
    exact h5.mono he.ext a2 fun hr k hk => he.live hun hr k hk

/-! ### The thread that moves -/

theorem Told.own {env : Env} {opt : RegistryOpts} {s s' : CReg T} {t : T} (h : Told env opt s t) (hx : Ext s s')
    (hh : resOf t s'.hist = resOf t s.hist) (l' : List (Nat × AOp)) (o' : List (Nat × AggData))
    (hl : askedBy t s'.log = askedBy t s.log ++ l') (ho : gotBy t s'.out = gotBy t s.out ++ o')
    (hp : ∀ l o, Prog env opt s t (s.pc t) l o → Prog env opt s' t (s'.pc t) (l ++ l') (o ++ o')) : Told env opt s' t := by
  obtain ⟨cs, l, o, h1, h2, h3, h4, h5⟩ := h
  refine ⟨cs, l ++ l', o ++ o', hh.trans h1, ?_, ?_, ?_, hp l o h5⟩
  · rw [hl, h2, List.append_assoc]
  · rw [ho, h3, List.append_assoc]
  · intro c hc
    obtain ⟨⟨b, hb⟩, x, hx⟩ := hx
    rw [hb, hx]
    exact (h4 c hc).mono

theorem use_exec {env : Env} {k : Nat} {a a' : Aggregator} {op : RegOp} {resp : Resp} {ops : List AOp} {out : List AggData}
    (hal : a.alive = true) (h : CReg.use env k a op = .ok (resp, a', ops, out)) :
    ∃ o, Aggregator.execAll env { a := a } ops = .ok o ∧ o.received = out ∧ Gives k o op resp ops := by
  have one : ∀ {op : AOp} {o : AObs}, Aggregator.exec env { a := a } op = .ok o → Aggregator.execAll env { a := a } [op] = .ok o := by
    intro op o h
    unfold Aggregator.execAll
    simp only [List.foldlM_cons, List.foldlM_nil, h]
    rfl
  have added : ∀ {c1 c2 ts : Int} {x : AddArg} {b : Bool} {a1 : Aggregator}, a.add env c1 c2 ts x = .ok (b, a1) →
      b = (!a1.enabled || !(AObs.record { a := a } b c1 ts x).isEmpty) := by
    intro c1 c2 ts x b a1 h
    have he := (Aggregator.add_alive h).2
    rw [he]
    unfold AObs.record
    cases hen : a.enabled with
    | false =>
      unfold Aggregator.add at h
      rw [if_pos hen] at h
      cases h
      rfl
    | true => cases b <;> simp
  cases op <;> simp only [CReg.use] at h <;> try (first | cases h | skip)
  case addId id c1 c2 now v n =>
    obtain ⟨⟨b, a1⟩, h1, h2⟩ := bind_inv h
    cases h2
    refine ⟨{ a := a1, accepted := AObs.record { a := a } b c1 now (.one v n) }, one ?_, rfl, rfl, ?_⟩
    · simp only [Aggregator.exec, h1, bind_ok']
    · exact congrArg Resp.bool (added h1)
  case addData q n c1 c2 rd =>
    obtain ⟨⟨b, a1⟩, h1, h2⟩ := bind_inv h
    cases h2
    refine ⟨{ a := a1, accepted := AObs.record { a := a } b c1 rd.ts (.reduced rd) }, one ?_, rfl, rfl, ?_⟩
    · simp only [Aggregator.exec, h1, bind_ok']
    · exact congrArg Resp.bool (added h1)
  case pop id =>
    refine ⟨{ a := a.pop.2, received := a.pop.1.toList }, one rfl, rfl, rfl, ?_⟩
    show Resp.record a.pop.1 = .record a.pop.1.toList.head?
    cases a.pop.1 <;> rfl
  case forcePop id =>
    obtain ⟨⟨d, a1⟩, h1, h2⟩ := bind_inv h
    cases h2
    refine ⟨{ a := a1, received := d.toList }, one ?_, rfl, rfl, ?_⟩
    · simp only [Aggregator.exec, h1, bind_ok', List.nil_append]
    · cases d <;> rfl
  case pusherId id hd =>
    refine ⟨{ a := a }, rfl, rfl, rfl, ?_⟩
    unfold Aggregator.createPusher
    rw [hal]
  case pusherName q n now hd =>
    refine ⟨{ a := a }, rfl, rfl, rfl, ?_⟩
    unfold Aggregator.createPusher
    rw [hal]
  case call p c1 c2 ts x =>
    obtain ⟨⟨l, a1⟩, h1, h2⟩ := bind_inv h
    cases h2
    unfold Aggregator.Pusher.call at h1
    by_cases ht : p.p.token = true
    · rw [if_pos ⟨ht, hal⟩] at h1 ⊢
      obtain ⟨⟨ok, out2, a2⟩, h3, h4⟩ := bind_inv h1
      cases h4
      refine ⟨{ a := a1, received := l, accepted := AObs.record { a := a } ok c1 ts x }, one ?_, rfl, ?_, rfl⟩
      · simp only [Aggregator.exec, h3, bind_ok', List.nil_append]
      · rw [if_pos ht]
    · rw [if_neg (fun h => ht h.1)] at h1 ⊢
      cases h1
      refine ⟨{ a := a }, rfl, rfl, ?_, rfl⟩
      rw [if_neg ht]
  case direct id op =>
    obtain ⟨o, h1, h2⟩ := bind_inv h
    cases h2
    exact ⟨o, one h1, rfl, rfl, rfl⟩

theorem asked_self (t : T) (log : List (Option T × Nat × AOp)) (k : Nat) (ops : List AOp) :
    askedBy t (log ++ ops.map fun op => (some t, k, op)) = askedBy t log ++ ops.map fun op => (k, op) := by
  unfold askedBy
  rw [List.filter_append, List.map_append]
  congr 1
  rw [List.filter_eq_self.2, List.map_map]
  · rfl
  · intro e he
    obtain ⟨op, -, rfl⟩ := List.mem_map.1 he
    simp

theorem got_self (t : T) (out : List (T × Nat × AggData)) (k : Nat) (l : List AggData) :
    gotBy t (out ++ l.map fun d => (t, k, d)) = gotBy t out ++ l.map fun d => (k, d) := by
  unfold gotBy
  rw [List.filter_append, List.map_append]
  congr 1
  rw [List.filter_eq_self.2, List.map_map]
  · rfl
  · intro e he
    obtain ⟨op, -, rfl⟩ := List.mem_map.1 he
    simp

theorem asked_birth (t : T) (log : List (Option T × Nat × AOp)) (k : Nat) (c : Prop) [Decidable c] (ops : List AOp) :
    askedBy t (log ++ if c then [] else ops.map fun op => (none, k, op)) = askedBy t log := by
  unfold askedBy
  rw [List.filter_append, List.map_append]
  split
  · simp
  · have hf := (List.filter_eq_nil_iff (p := fun e : Option T × Nat × AOp => decide (e.1 = some t)) (l := ops.map fun op => (none, k, op))).2 ?_
    · rw [hf, List.map_nil, List.append_nil]
    intro e he
    obtain ⟨op, -, rfl⟩ := List.mem_map.1 he
    simp

/-- Steps without effect on aggregators. -/
theorem Told.quiet {env : Env} {opt : RegistryOpts} {s s' : CReg T} {t : T} (h : Told env opt s t) (hx : Ext s s')
    (hh : resOf t s'.hist = resOf t s.hist) (hl : askedBy t s'.log = askedBy t s.log) (ho : gotBy t s'.out = gotBy t s.out)
    (hp : ∀ l o, Prog env opt s t (s.pc t) l o → Prog env opt s' t (s'.pc t) l o) : Told env opt s' t := by
  refine h.own hx hh [] [] (by rw [hl, List.append_nil]) (by rw [ho, List.append_nil]) fun l o h => ?_
  rw [List.append_nil, List.append_nil]
  exact hp l o h

theorem miss_noAnswer {op : RegOp} (h : op.single) : CReg.miss op = noAnswer op := by
  cases op <;> first | rfl | exact h.elim

omit [DecidableEq T] in
theorem ext_refl {s s' : CReg T} (h1 : s'.born = s.born) (h2 : s'.log = s.log) : Ext s s' :=
  ⟨⟨[], by rw [h1, List.append_nil]⟩, [], by rw [h2, List.append_nil]⟩

theorem Told.look {env : Env} {opt : RegistryOpts} {s s' : CReg T} {t : T} (h : Told env opt s t) {op : RegOp} {id : Nat}
    (hs : op.single) (hz : ∀ l o, Prog env opt s t (s.pc t) l o → l = [] ∧ o = [])
    (hr : ∀ c, s.r.getAggregator id = .ok (some c) → Right opt s.born c.ref op) (hm : s.look t op id = some s') : Told env opt s' t := by
  unfold CReg.look at hm
  split at hm
  · split at hm
    · cases hm
      refine h.quiet (ext_refl rfl rfl) rfl rfl rfl fun l o hp => ?_
      obtain ⟨rfl, rfl⟩ := hz l o hp
      rw [goto_self]
      show Done env opt s.born s.log t op _ [] []
      rw [miss_noAnswer hs]
      exact Done.missed op hs
    · rename_i c hc
      cases hm
      refine h.quiet (ext_refl rfl rfl) rfl rfl rfl fun l o hp => ?_
      obtain ⟨rfl, rfl⟩ := hz l o hp
      rw [goto_self]
      exact ⟨rfl, rfl, hr c hc⟩
    · cases hm
  · cases hm

theorem Told.create {env : Env} {opt : RegistryOpts} {s s' : CReg T} {t : T} (h : Told env opt s t) {q : Ask} {name : Name} {now : Int}
    {next : Nat → CPc} (hz : ∀ l o, Prog env opt s t (s.pc t) l o → l = [] ∧ o = [])
    (hn : ∀ id, s.r.createAggregator env q name now = .ok (id, s'.r) → Prog env opt s' t (next id) [] [])
    (hm : s.create env t q name now next = some s') : Told env opt s' t := by
  have he := create_eff hm
  unfold CReg.create at hm
  split at hm
  · split at hm
    · rename_i id r hc
      cases hm
      refine h.quiet he.ext rfl (asked_birth _ _ _ _ _) rfl fun l o hp => ?_
      obtain ⟨rfl, rfl⟩ := hz l o hp
      rw [goto_self]
      exact hn id hc
    · cases hm
  · cases hm

theorem Told.move [Fintype T] {env : Env} {opt : RegistryOpts} {s s' : CReg T} {t : T} (hser : Serial env opt.toAggregatorOpts s)
    (hnm : Named opt s) (hr : Room opt s'.r.nextRef) (h : Told env opt s t) (hm : s.move env t = some s') : Told env opt s' t := by
  have he := move_eff hser.uniq hm
  have hle := he.next hser.uniq
  have hr0 : Room opt s.r.nextRef := hr.mono hle
  have hnm' := hnm.eff hser hr he
  have hx := he.ext
  unfold CReg.move at hm
  split at hm
  case h_1 => cases hm
  case h_2 op hpc =>
    have hz : ∀ l o, Prog env opt s t (s.pc t) l o → l = [] ∧ o = [] := by
      intro l o hp; rw [hpc] at hp; exact hp
    have byId : ∀ {id c}, op.target = some id → s.r.getAggregator id = .ok (some c) →
        ∀ id', op.target = some id' → IdOk opt id' → ∃ nm, s.born[c.ref]? = some (nm, id') := by
      intro id c h1 h2 id' h3 h4
      rw [h1] at h3
      cases h3
      obtain ⟨nm, h5, -⟩ := hnm.got hr0 h4 h2
      exact ⟨nm, h5⟩
    cases op
    case create q n now => exact h.create (next := fun id => .leave (.create q n now) (.id id)) hz (fun id _ => Done.none _ _ (.inl ⟨q, n, now, rfl⟩)) hm
    case addData q n c1 c2 rd =>
      exact h.create (next := .named (.addData q n c1 c2 rd)) hz (fun id hc => ⟨rfl, rfl, hnm.created hnm' hr hc hle⟩) hm
    case pusherName q n now hd =>
      exact h.create (next := .named (.pusherName q n now hd)) hz (fun id hc => ⟨rfl, rfl, hnm.created hnm' hr hc hle⟩) hm
    case addId id c1 c2 now v n => exact h.look (op := .addId id c1 c2 now v n) trivial hz (fun c hc => byId rfl hc) hm
    case pop id => exact h.look (op := .pop id) trivial hz (fun c hc => byId rfl hc) hm
    case forcePop id => exact h.look (op := .forcePop id) trivial hz (fun c hc => byId rfl hc) hm
    case pusherId id hd => exact h.look (op := .pusherId id hd) trivial hz (fun c hc => byId rfl hc) hm
    case direct id op => exact h.look (op := .direct id op) trivial hz (fun c hc => byId rfl hc) hm
    case call p c1 c2 ts x =>
      unfold CReg.start at hm
      simp only at hm
      split at hm
      · cases hm
        refine h.quiet hx rfl rfl rfl fun l o hp => ?_
        obtain ⟨rfl, rfl⟩ := hz l o hp
        rw [goto_self]
        exact ⟨rfl, rfl, rfl⟩
      · cases hm
        refine h.quiet hx rfl rfl rfl fun l o hp => ?_
        obtain ⟨rfl, rfl⟩ := hz l o hp
        rw [goto_self]
        exact Done.missed _ trivial
    case del name =>
      unfold CReg.start at hm
      simp only at hm
      split at hm
      · split at hm
        · cases hm
          refine h.quiet hx rfl rfl rfl fun l o hp => ?_
          obtain ⟨rfl, rfl⟩ := hz l o hp
          rw [goto_self]
          exact Done.none _ _ (.inr (.inr (.inr ⟨name, rfl⟩)))
        · cases hm
      · cases hm
    case getName id =>
      unfold CReg.start at hm
      simp only at hm
      split at hm
      · cases hm
        refine h.quiet hx rfl rfl rfl fun l o hp => ?_
        obtain ⟨rfl, rfl⟩ := hz l o hp
        rw [goto_self]
        exact Done.none _ _ (.inr (.inl ⟨id, rfl⟩))
      · cases hm
    case setInit v =>
      unfold CReg.start at hm
      simp only at hm
      split at hm
      · cases hm
        refine h.quiet hx rfl rfl rfl fun l o hp => ?_
        obtain ⟨rfl, rfl⟩ := hz l o hp
        rw [goto_self]
        exact Done.none _ _ (.inr (.inr (.inl ⟨v, rfl⟩)))
      · cases hm
    case popAll force clk =>
      unfold CReg.start at hm
      simp only at hm
      split at hm
      · cases hm
        refine h.quiet hx rfl rfl rfl fun l o hp => ?_
        obtain ⟨rfl, rfl⟩ := hz l o hp
        rw [goto_self]
        exact ⟨List.mem_cons_self, [], by simp, rfl, rfl, rfl⟩
      · cases hm
    case enable v =>
      unfold CReg.start at hm
      simp only at hm
      split at hm
      · cases hm
        refine h.quiet hx rfl rfl rfl fun l o hp => ?_
        obtain ⟨rfl, rfl⟩ := hz l o hp
        rw [goto_self]
        exact ⟨⟨[], rfl⟩, rfl⟩
      · cases hm
  case h_3 op id hpc =>
    by_cases hb : id = badId
    · subst hb
      refine h.look (op := op) (id := badId) ?_ ?_ ?_ hm
      · obtain ⟨_, _, _, -, -, -, -, hp⟩ := h
        rw [hpc] at hp
        obtain ⟨-, -, ha⟩ := hp
        cases op <;> trivial
      · intro l o hp
        rw [hpc] at hp
        exact ⟨hp.1, hp.2.1⟩
      · intro c hc
        simp [getAggregator] at hc
    · have ha : Aim s.born id op := by
        obtain ⟨_, _, _, -, -, -, -, hp⟩ := h
        rw [hpc] at hp
        exact hp.2.2
      have key : ∀ (nm : Name) (c : Cell), (∃ j : Nat, s.born[j]? = some (nm, id)) → s.r.getAggregator id = .ok (some c) →
          ∃ (j id : Nat) (nm' : Name), s.born[j]? = some (nm, id) ∧ s.born[c.ref]? = some (nm', id) := by
        rintro nm c ⟨j, hj⟩ hc
        obtain ⟨nm', h1, -⟩ := hnm.got hr0 (hnm.ids _ (List.mem_of_getElem? hj)) hc
        exact ⟨j, id, nm', hj, h1⟩
      refine h.look (op := op) (id := id) ?_ ?_ ?_ hm
      · cases op <;> trivial
      · intro l o hp
        rw [hpc] at hp
        exact ⟨hp.1, hp.2.1⟩
      · intro c hc
        cases op <;> first
          | exact ha.elim
          | (rcases ha with ha | ha
             · exact absurd ha hb
             · exact key _ c ha hc)
  case h_4 op k hpc =>
    split at hm
    · cases hm
    · rename_i a ha
      split at hm
      · rename_i resp a' ops out huse
        cases hm
        obtain ⟨o, h1, h2, h3⟩ := use_exec (hser.alive ha) huse
        refine h.own hx rfl (ops.map fun op => (k, op)) (out.map fun d => (k, d)) (asked_self _ _ _ _) (got_self _ _ _ _) fun l o' hp => ?_
        rw [hpc] at hp
        obtain ⟨rfl, rfl, hk⟩ := hp
        rw [goto_self, List.nil_append, List.nil_append, ← h2]
        exact Done.used op resp k s.log [] s.out a ops o hk (by rw [List.append_nil]; rfl) (hser.life k a ha) h1 h3
      · cases hm
  case h_5 force clk i acc hpc =>
    split at hm
    · rename_i hi
      obtain ⟨hp1, hp2, hp3⟩ := hnm.rinv.pos2id hr0 hi
      split at hm
      · cases hm
      · rename_i id hid
        have hid' : IdOk opt id := by
          rw [hp1] at hid
          cases hid
          exact .inr ⟨hp2, hp3⟩
        split at hm
        · cases hm
        · cases hm
          refine h.quiet hx rfl rfl rfl fun l o hp => ?_
          rw [hpc] at hp
          rw [goto_self]
          exact hp
        · rename_i c hc
          split at hm
          · cases hm
          · rename_i b out a hs
            cases hm
            have := separate_quiet hs
            subst this
            refine h.own hx rfl [(c.ref, .separate (clk id) 0 false force)] [] (asked_self _ _ c.ref [_]) (got_self _ _ c.ref []) fun l o' hp => ?_
            rw [hpc] at hp
            obtain ⟨h1, vs, h2, rfl, rfl, h5⟩ := hp
            rw [goto_self, List.append_nil]
            obtain ⟨nm, h6, -⟩ := hnm.got hr0 hid' hc
            obtain ⟨-, pos, -, hat⟩ := (getAgg_iff _ _ _).1 hc
            exact ⟨h1, vs, nm, h2, h6, ⟨a, at_update_self a ⟨pos, hat⟩⟩, rfl, rfl, h5⟩
    · cases hm
      refine h.quiet hx rfl rfl rfl fun l o hp => ?_
      rw [hpc] at hp
      obtain ⟨h1, vs, h2, rfl, rfl, rfl⟩ := hp
      rw [goto_self]
      exact Done.popAll force clk vs h2
  case h_6 force clk i id k acc hpc =>
    split at hm
    · cases hm
    · rename_i a ha
      split at hm
      · cases hm
      · rename_i d a' hp
        cases hm
        refine h.own hx rfl [(k, if force then .forcePop else .pop)] (d.toList.map fun d => (k, d)) (asked_self _ _ k [_])
          (got_self _ _ k _) fun l o' hp => ?_
        rw [hpc] at hp
        obtain ⟨h1, vs, nm, h2, h3, ⟨b, p, h4⟩, rfl, rfl, rfl⟩ := hp
        rw [goto_self]
        obtain ⟨nm', id', g1, g2, -⟩ := hnm.live p _ h4
        simp only at g1
        rw [h3] at g1
        cases g1
        have hname : s.r.dict.getName id = nm := by
          unfold Dict.getName
          rw [hnm.rinv.index_lookup.2 g2]
          rfl
        refine ⟨h1, vs ++ [⟨k, id, nm, d⟩], ?_, ?_, ?_, ?_⟩
        · intro v hv
          rcases List.mem_append.1 hv with hv | hv
          · exact h2 v hv
          · rw [List.mem_singleton] at hv
            subst hv
            exact h3
        · rw [List.flatMap_append, List.append_assoc]
          rfl
        · rw [List.flatMap_append]
          simp [Visit.outs]
        · rw [List.flatMap_append, hname]
          simp [Visit.named]
  case h_7 v i hpc =>
    split at hm
    · split at hm
      · cases hm
        refine h.quiet hx rfl rfl rfl fun l o hp => ?_
        rw [hpc] at hp
        rw [goto_self]
        exact hp
      · rename_i c hc
        cases hm
        refine h.own hx rfl [(c.ref, .enable v)] [] (asked_self _ _ c.ref [_]) (got_self _ _ c.ref []) fun l o' hp => ?_
        rw [hpc] at hp
        obtain ⟨⟨ks, rfl⟩, rfl⟩ := hp
        rw [goto_self]
        exact ⟨⟨ks ++ [c.ref], by rw [List.map_append]; rfl⟩, rfl⟩
    · cases hm
      refine h.quiet hx rfl rfl rfl fun l o hp => ?_
      rw [hpc] at hp
      obtain ⟨⟨ks, rfl⟩, rfl⟩ := hp
      rw [goto_self]
      exact Done.enable v ks
  case h_8 op resp hpc =>
    cases hm
    obtain ⟨cs, l, o, h1, h2, h3, h4, h5⟩ := h
    rw [hpc] at h5
    refine ⟨cs ++ [((op, resp), l, o)], [], [], ?_, ?_, ?_, ?_, ?_⟩
    · show resOf t (s.hist ++ [_]) = _
      rw [resOf_res, if_pos rfl, h1, List.map_append]
      rfl
    · show askedBy t s.log = _
      rw [h2, List.flatMap_append]
      simp
    · show gotBy t s.out = _
      rw [h3, List.flatMap_append]
      simp
    · intro c hc
      rcases List.mem_append.1 hc with hc | hc
      · exact h4 c hc
      · rw [List.mem_singleton] at hc
        subst hc
        exact h5
    · rw [goto_self]
      exact ⟨rfl, rfl⟩

theorem Told.call {env : Env} {opt : RegistryOpts} {s : CReg T} {t : T} {op : RegOp} (h : Told env opt s t) (hi : s.pc t = .idle) :
    Told env opt (s.call t op) t := by
  refine h.quiet (ext_refl rfl rfl) (resOf_call _ _ _ _) rfl rfl fun l o hp => ?_
  rw [hi] at hp
  show Prog env opt _ t ((CReg.goto _ t _).pc t) l o
  rw [goto_self]
  exact hp

/-- Everything at once, as long as there are ids for the names. -/
theorem told_reach [Fintype T] {env : Env} {P : RegOp → Prop} {opt : RegistryOpts} {s : CReg T}
    (h : Relation.ReflTransGen (CReg.Step env P) (CReg.init (Registry.new opt)) s) (hr : Room opt s.r.nextRef) :
    Named opt s ∧ ∀ t, Told env opt s t := by
  induction h with
  | refl => exact ⟨named_new opt, fun t => ⟨[], [], [], rfl, rfl, rfl, by simp, rfl, rfl⟩⟩
  | @tail s s' hreach hs ih =>
    have hser := serial_reach hreach
    cases hs with
    | call t op hp hi =>
      obtain ⟨i1, i2⟩ := ih hr
      refine ⟨i1.eff hser hr (env := env) (t := t) call_eff, fun u => ?_⟩
      by_cases hu : u = t
      · subst hu; exact (i2 u).call hi
      · exact (i2 u).aside hser.uniq hu (env := env) call_eff ⟨goto_ne _ _ hu, fun h => h, resOf_call _ _ _ _⟩
    | move _ t hm =>
      have he := move_eff hser.uniq hm
      obtain ⟨i1, i2⟩ := ih (hr.mono (he.next hser.uniq))
      refine ⟨i1.eff hser hr he, fun u => ?_⟩
      by_cases hu : u = t
      · subst hu; exact (i2 u).move hser i1 hr hm
      · exact (i2 u).aside hser.uniq hu he (move_aside hu hm)

end

end Registry
end Wrtstat
