/-
C169: the aggregators of a registry used by several threads keep the books that their operations, in the order of the log, make.
C170: no call of a thread faults or hangs.
-/
import Verif.Props.RegistryTotal
import Verif.Props.ConcCalls

namespace Wrtstat
namespace Registry

set_option autoImplicit false

open Aggregator (AOp AObs Trans Fullbook Slip)
open Relation

variable {T : Type} [Fintype T] [DecidableEq T]

/-! ### C169 -/

/-- What was asked of aggregator `k`, in the order in which it was done. -/
def askedOf (log : List (Option T × Nat × AOp)) (k : Nat) : List AOp := (log.filter fun e => e.2.1 = k).map fun e => e.2.2

/-- Whatever threads do with a registry at the same time, and whatever their clocks say, the records that an aggregator has handed out to some
thread are the slips handed over in the books kept by hand, in the order of the log; those that wait are the slips in the queue and in the tray. -/
theorem C169_books (env : Env) (P : RegOp → Prop) (opt : RegistryOpts) (s : CReg T) (hs : 0 < opt.step)
    (h : ReflTransGen (CReg.Step env P) (CReg.init (Registry.new opt)) s) (k : Nat) (hk : k < s.r.nextRef) :
    ∃ (a : Aggregator) (q : Ask) (now : Int) (a0 : Aggregator), s.aggOf k = some a ∧
      Aggregator.new opt.toAggregatorOpts q.clk q.rand now = .ok a0 ∧
      let D := Aggregator.fullbook opt.toAggregatorOpts a0.sep.currentTime a0.enabled (askedOf s.log k)
      List.Forall₂ (Slip.Says env opt.toAggregatorOpts) D.made (forRef k (s.out.map Prod.snd)) ∧
        List.Forall₂ (Slip.Says env opt.toAggregatorOpts) D.queue a.agList ∧
        List.Forall₂ (Slip.Says env opt.toAggregatorOpts) D.tray a.sep.sepList ∧
        a.sep.currentTime = D.begins ∧ a.enabled = D.en := by
  obtain ⟨h1, -, -⟩ := C83_serial env P opt s h
  obtain ⟨a, ha, q, now, a0, bs, rest, l1, -, l3, -, o, l5, rfl, l7⟩ := h1 k hk
  have hops : bs ++ rest.map (fun e => e.2.2) = askedOf s.log k := by
    unfold askedOf
    rw [l3, List.map_append, List.map_map]
    congr 1
    exact (List.map_id bs).symm
  rw [hops] at l5
  obtain ⟨b1, b2, b3, -, -, b6, b7⟩ := C161_fullbook env opt.toAggregatorOpts a0 _ o hs (.new l1) l5
  exact ⟨o.a, q, now, a0, ha, l1, by rw [← l7]; exact b1, b2, b3, b6, b7⟩

/-! ### No thread faults -/

variable {env : Env} {opt : RegistryOpts} {m mx : Int}

theorem Fit.execOne (hs : 0 < opt.step) (B : Reducer.Bounds env m mx) {o o' : AObs} (h : Fit env opt m mx o.a) (op : AOp)
    (hx : ∀ v ∈ op.vals, m ≤ v ∧ v ≤ mx) (he : Aggregator.exec env o op = .ok o') : Fit env opt m mx o'.a := by
  cases op with
  | add c1 c2 ts x =>
    obtain ⟨b, a', h1, h2⟩ := h.add hs B c1 c2 ts x hx
    simp only [Aggregator.exec, h1, bind_ok'] at he
    cases he; exact h2
  | push c1 c2 ts x hd =>
    obtain ⟨b, out, a', h1, h2⟩ := h.push hs B c1 c2 ts x hd hx
    simp only [Aggregator.exec, h1, bind_ok'] at he
    cases he; exact h2
  | separate c ts hd f =>
    obtain ⟨b, out, a', h1, h2⟩ := h.separate hs B c ts hd f
    simp only [Aggregator.exec, h1, bind_ok'] at he
    cases he; exact h2
  | pop => cases he; exact h.pop hs B
  | forcePop =>
    obtain ⟨d, a', h1, h2⟩ := h.forcePop hs B
    simp only [Aggregator.exec, h1, bind_ok'] at he
    cases he; exact h2
  | look =>
    obtain ⟨x, h1, h2⟩ := bind_inv he
    cases h2; exact h
  | enable v => cases he; exact h.enable hs B v

theorem Fit.execMany (hs : 0 < opt.step) (B : Reducer.Bounds env m mx) (ops : List AOp) : ∀ {o o' : AObs}, Fit env opt m mx o.a →
    (∀ op ∈ ops, ∀ v ∈ op.vals, m ≤ v ∧ v ≤ mx) → Aggregator.execAll env o ops = .ok o' → Fit env opt m mx o'.a := by
  induction ops with
  | nil => intro o o' h _ he; cases he; exact h
  | cons op ops ih =>
    intro o o' h hx he
    unfold Aggregator.execAll at he
    rw [List.foldlM_cons] at he
    obtain ⟨o1, h1, h2⟩ := bind_inv he
    exact ih (h.execOne hs B op (hx op List.mem_cons_self) h1) (fun x hm => hx x (List.mem_cons_of_mem _ hm)) h2

/-- Calls that use an aggregator once they have it. -/
def RegOp.uses : RegOp → Prop
  | .addId .. => True
  | .addData .. => True
  | .pop _ => True
  | .forcePop _ => True
  | .pusherId .. => True
  | .pusherName .. => True
  | .call .. => True
  | .direct .. => True
  | _ => False

/-- A thread is somewhere from where it can go on. -/
def Fine (m mx : Int) (n : Nat) : CPc → Prop
  | .idle => True
  | .want op => op.within m mx
  | .named op _ => op.within m mx ∧ op.uses
  | .have op k => op.within m mx ∧ op.uses ∧ k < n
  | .sweep .. => True
  | .swept _ _ _ _ k _ => k < n
  | .enab .. => True
  | .leave .. => True

def CPc.reads : CPc → Bool
  | .sweep .. => true
  | .swept .. => true
  | _ => false

def CPc.writes : CPc → Bool
  | .enab .. => true
  | _ => false

/-- All threads are fine, the log has values within the bounds only, and the registry lock is held by those in `pop_` and in `enable`. -/
structure AllFine (m mx : Int) (s : CReg T) : Prop where
  log : ∀ e ∈ s.log, ∀ v ∈ e.2.2.vals, m ≤ v ∧ v ≤ mx
  pc : ∀ t, Fine m mx s.r.nextRef (s.pc t)
  reads : ∀ t, t ∈ s.readers ↔ (s.pc t).reads = true
  nodup : s.readers.Nodup
  writes : ∀ t, s.writer = some t ↔ (s.pc t).writes = true

theorem Fine.mono {n n' : Nat} (h : n ≤ n') {p : CPc} (hp : Fine m mx n p) : Fine m mx n' p := by
  cases p <;> simp only [Fine] at hp ⊢ <;> first | exact hp | omega | exact ⟨hp.1, hp.2.1, by omega⟩

theorem use_within {k : Nat} {a a' : Aggregator} {op : RegOp} {resp : Resp} {ops : List AOp} {out : List AggData} (hop : op.within m mx)
    (h : CReg.use env k a op = .ok (resp, a', ops, out)) : ∀ x ∈ ops, ∀ v ∈ x.vals, m ≤ v ∧ v ≤ mx := by
  cases op <;> simp only [CReg.use] at h <;> try (first | cases h | skip)
  case addId id c1 c2 now v n =>
    obtain ⟨⟨b, a1⟩, h1, h2⟩ := bind_inv h
    cases h2
    intro x hx
    rw [List.mem_singleton] at hx; subst hx
    exact hop
  case addData q n c1 c2 rd =>
    obtain ⟨⟨b, a1⟩, h1, h2⟩ := bind_inv h
    cases h2
    intro x hx
    rw [List.mem_singleton] at hx; subst hx
    exact hop.2
  case pop id => simp [AOp.vals]
  case forcePop id =>
    obtain ⟨⟨d, a1⟩, h1, h2⟩ := bind_inv h
    cases h2
    simp [AOp.vals]
  case pusherId => simp
  case pusherName => simp
  case call p c1 c2 ts x =>
    obtain ⟨⟨l, a1⟩, h1, h2⟩ := bind_inv h
    cases h2
    intro y hy
    split at hy
    · rw [List.mem_singleton] at hy; subst hy; exact hop
    · cases hy
  case direct id op =>
    obtain ⟨o, h1, h2⟩ := bind_inv h
    cases h2
    intro y hy
    rw [List.mem_singleton] at hy; subst hy
    exact hop

omit [Fintype T] [DecidableEq T] in
/-- Every aggregator, in the registry or removed from it, agrees with some books. -/
theorem AllFine.fit {s : CReg T} (h : AllFine m mx s) (hs : 0 < opt.step) (B : Reducer.Bounds env m mx)
    (hser : Serial env opt.toAggregatorOpts s) {k : Nat} {a : Aggregator} (ha : s.aggOf k = some a) : Fit env opt m mx a := by
  obtain ⟨q, now, a0, bs, rest, l1, -, l3, -, o, l5, rfl, l7⟩ := hser.life k a ha
  obtain ⟨a1, h1, h2⟩ := fit_new (env := env) hs m mx q.clk q.rand now
  rw [l1] at h1
  cases h1
  refine Fit.execMany hs B _ (o := { a := a0 }) h2 ?_ l5
  intro op hop
  rcases List.mem_append.1 hop with hb | hb
  · have : (none, k, op) ∈ s.log.filter fun e => e.2.1 = k := by
      rw [l3]
      exact List.mem_append_left _ (List.mem_map.2 ⟨op, hb, rfl⟩)
    exact h.log _ (List.mem_filter.1 this).1
  · obtain ⟨e, he, rfl⟩ := List.mem_map.1 hb
    have : e ∈ s.log.filter fun e => e.2.1 = k := by
      rw [l3]
      exact List.mem_append_right _ he
    exact h.log _ (List.mem_filter.1 this).1

omit [Fintype T] [DecidableEq T] in
theorem AllFine.allFit {s : CReg T} (h : AllFine m mx s) (hs : 0 < opt.step) (B : Reducer.Bounds env m mx)
    (hser : Serial env opt.toAggregatorOpts s) : AllFit env opt m mx s.r := fun p c hc =>
  h.fit hs B hser (agg_at hser.uniq (k := c.ref) (a := c.agg) ⟨p, hc⟩)

/-! ### The invariant -/

omit [Fintype T] in
/-- A thread goes on, and the registry lock stays where it is. -/
theorem AllFine.to {s s' : CReg T} (h : AllFine m mx s) {t : T} {p : CPc} (hn : s.r.nextRef ≤ s'.r.nextRef)
    (hpc : s'.pc = Function.update s.pc t p) (hp : Fine m mx s'.r.nextRef p) (hlog : ∀ e ∈ s'.log, e ∈ s.log ∨ ∀ v ∈ e.2.2.vals, m ≤ v ∧ v ≤ mx)
    (hr : s'.readers = s.readers) (hw : s'.writer = s.writer) (hrd : p.reads = (s.pc t).reads) (hwr : p.writes = (s.pc t).writes) :
    AllFine m mx s' := by
  refine ⟨fun e he => (hlog e he).elim (h.log e) id, fun u => ?_, fun u => ?_, by rw [hr]; exact h.nodup, fun u => ?_⟩
  · rw [hpc]
    by_cases hu : u = t
    · subst hu; rw [Function.update_self]; exact hp
    · rw [Function.update_of_ne hu]; exact (h.pc u).mono hn
  · rw [hpc, hr]
    by_cases hu : u = t
    · subst hu; rw [Function.update_self, hrd]; exact h.reads u
    · rw [Function.update_of_ne hu]; exact h.reads u
  · rw [hpc, hw]
    by_cases hu : u = t
    · subst hu; rw [Function.update_self, hwr]; exact h.writes u
    · rw [Function.update_of_ne hu]; exact h.writes u

omit [Fintype T] in
theorem fine_look {s s' : CReg T} {t : T} {op : RegOp} {id : Nat} (h : AllFine m mx s) (huq : Uniq s.r)
    (hop : op.within m mx) (hu : op.uses) (hrd : (s.pc t).reads = false) (hwr : (s.pc t).writes = false)
    (hm : s.look t op id = some s') : AllFine m mx s' := by
  unfold CReg.look at hm
  split at hm
  · split at hm
    · cases hm
      exact h.to (t := t) (p := .leave op (CReg.miss op)) (Nat.le_refl _) rfl trivial (fun e he => .inl he) rfl rfl hrd.symm hwr.symm
    · rename_i c hc
      cases hm
      refine h.to (t := t) (p := .have op c.ref) (Nat.le_refl _) rfl ⟨hop, hu, ?_⟩ (fun e he => .inl he) rfl rfl hrd.symm hwr.symm
      obtain ⟨-, pos, -, hp⟩ := (getAgg_iff _ _ _).1 hc
      exact huq.lt pos c hp
    · cases hm
  · cases hm

omit [Fintype T] in
theorem fine_create {s s' : CReg T} {t : T} {q : Ask} {name : Name} {now : Int} {next : Nat → CPc} (h : AllFine m mx s)
    (huq : Uniq s.r) (hq : Ask.within m mx q) (hnx : ∀ id n, Fine m mx n (next id))
    (hrd : ∀ id, (next id).reads = (s.pc t).reads) (hwr : ∀ id, (next id).writes = (s.pc t).writes)
    (hm : s.create env t q name now next = some s') : AllFine m mx s' := by
  unfold CReg.create at hm
  split at hm
  · split at hm
    · rename_i id r hc
      cases hm
      refine h.to (t := t) (p := next id) (create_grows huq hc).1.next rfl (hnx _ _) (fun e he => ?_) rfl rfl (hrd id) (hwr id)
      rcases List.mem_append.1 he with he | he
      · exact .inl he
      · right
        split at he
        · cases he
        · obtain ⟨op, hop, rfl⟩ := List.mem_map.1 he
          rcases birth_cases s.r q with hb | hb | ⟨rd, hi, hb⟩
          · rw [hb] at hop; cases hop
          · rw [hb, List.mem_singleton] at hop; subst hop; simp [AOp.vals]
          · rw [hb, List.mem_singleton] at hop; subst hop; exact hq rd hi
    · cases hm
  · cases hm

omit [Fintype T] in
/-- An aggregator is used. -/
theorem AllFine.set {s : CReg T} (h : AllFine m mx s) {t : T} {p : CPc} {k : Nat} {a : Aggregator} {ops : List AOp} {out : List AggData}
    (hp : Fine m mx s.r.nextRef p) (hops : ∀ op ∈ ops, ∀ v ∈ op.vals, m ≤ v ∧ v ≤ mx) (hrd : p.reads = (s.pc t).reads)
    (hwr : p.writes = (s.pc t).writes) : AllFine m mx ((s.setAgg t k a ops out).goto t p) := by
  refine h.to (s' := (s.setAgg t k a ops out).goto t p) (t := t) (p := p) (Nat.le_refl _) rfl hp (fun e he => ?_) rfl rfl hrd hwr
  rcases List.mem_append.1 he with he | he
  · exact .inl he
  · obtain ⟨op, hop, rfl⟩ := List.mem_map.1 he
    exact .inr (hops op hop)

omit [Fintype T] [DecidableEq T] in
theorem freeW_iff {s : CReg T} : s.freeW = true ↔ s.writer = none ∧ s.readers = [] := by
  unfold CReg.freeW
  simp

theorem AllFine.move {s s' : CReg T} {t : T} (h : AllFine m mx s) (huq : Uniq s.r)
    (hm : s.move env t = some s') : AllFine m mx s' := by
  have hf := h.pc t
  unfold CReg.move at hm
  split at hm
  case h_1 => cases hm
  case h_2 op hpc =>
    rw [hpc] at hf
    have hrd : (s.pc t).reads = false := by rw [hpc]; rfl
    have hwr : (s.pc t).writes = false := by rw [hpc]; rfl
    cases op
    case create q n now =>
      exact fine_create h huq hf (next := fun id => .leave (.create q n now) (.id id)) (fun _ _ => trivial) (fun _ => hrd.symm)
        (fun _ => hwr.symm) hm
    case addData q n c1 c2 rd =>
      exact fine_create h huq hf.1 (next := .named (.addData q n c1 c2 rd)) (fun _ _ => ⟨hf, trivial⟩) (fun _ => hrd.symm)
        (fun _ => hwr.symm) hm
    case pusherName q n now hd =>
      exact fine_create h huq hf (next := .named (.pusherName q n now hd)) (fun _ _ => ⟨hf, trivial⟩) (fun _ => hrd.symm)
        (fun _ => hwr.symm) hm
    case addId id c1 c2 now v n => exact fine_look (op := .addId id c1 c2 now v n) h huq hf trivial hrd hwr hm
    case pop id => exact fine_look (op := .pop id) h huq hf trivial hrd hwr hm
    case forcePop id => exact fine_look (op := .forcePop id) h huq hf trivial hrd hwr hm
    case pusherId id hd => exact fine_look (op := .pusherId id hd) h huq hf trivial hrd hwr hm
    case direct id op => exact fine_look (op := .direct id op) h huq hf trivial hrd hwr hm
    case call p c1 c2 ts x =>
      unfold CReg.start at hm
      simp only at hm
      split at hm
      · rename_i hal
        cases hm
        refine h.to (t := t) (p := .have (.call p c1 c2 ts x) p.ref) (Nat.le_refl _) rfl ⟨hf, trivial, ?_⟩ (fun e he => .inl he) rfl rfl
          hrd.symm hwr.symm
        unfold CReg.alive at hal
        rw [Bool.or_eq_true, decide_eq_true_eq] at hal
        rcases hal with hal | ⟨u, hu⟩
        · obtain ⟨a, ha⟩ := Option.isSome_iff_exists.1 hal
          obtain ⟨i, hi⟩ := find_at ha
          exact huq.lt i _ hi
        · have := h.pc u
          revert hu this
          generalize s.pc u = pu
          cases pu <;> simp only [CPc.held, Fine] <;> intro hu hF
          all_goals first | cases hu
          · exact hF.2.2
          · exact hF
      · cases hm
        exact h.to (t := t) (p := .leave (.call p c1 c2 ts x) (.handed [])) (Nat.le_refl _) rfl trivial (fun e he => .inl he) rfl rfl
          hrd.symm hwr.symm
    case del name =>
      unfold CReg.start at hm
      simp only at hm
      split at hm
      · split at hm
        · rename_i b r hd
          cases hm
          exact h.to (t := t) (p := .leave (.del name) (.bool b)) (del_grows huq hd).next rfl trivial (fun e he => .inl he) rfl rfl
            hrd.symm hwr.symm
        · cases hm
      · cases hm
    case getName id =>
      unfold CReg.start at hm
      simp only at hm
      split at hm
      · cases hm
        exact h.to (t := t) (p := .leave (.getName id) (.name (s.r.getName id))) (Nat.le_refl _) rfl trivial (fun e he => .inl he) rfl rfl
          hrd.symm hwr.symm
      · cases hm
    case setInit v =>
      unfold CReg.start at hm
      simp only at hm
      split at hm
      · cases hm
        exact h.to (t := t) (p := .leave (.setInit v) .unit) (Nat.le_refl _) rfl trivial (fun e he => .inl he) rfl rfl
          hrd.symm hwr.symm
      · cases hm
    case popAll force clk =>
      unfold CReg.start at hm
      simp only at hm
      split at hm
      · cases hm
        have hnr : t ∉ s.readers := fun hx => by have := (h.reads t).1 hx; rw [hrd] at this; cases this
        refine ⟨h.log, fun u => ?_, fun u => ?_, List.nodup_cons.2 ⟨hnr, h.nodup⟩, fun u => ?_⟩
        · by_cases hu : u = t
          · subst hu; rw [goto_self]; trivial
          · rw [goto_ne _ _ hu]; exact h.pc u
        · show u ∈ t :: s.readers ↔ _
          by_cases hu : u = t
          · subst hu; rw [goto_self]; simp [CPc.reads]
          · rw [goto_ne _ _ hu, List.mem_cons]
            simp only [hu, false_or]
            exact h.reads u
        · by_cases hu : u = t
          · subst hu; rw [goto_self]
            show s.writer = some u ↔ _
            rw [h.writes u, hwr]; simp [CPc.writes]
          · rw [goto_ne _ _ hu]; exact h.writes u
      · cases hm
    case enable v =>
      unfold CReg.start at hm
      simp only at hm
      split at hm
      · rename_i hfr
        cases hm
        obtain ⟨hw0, hr0⟩ := freeW_iff.1 hfr
        refine ⟨h.log, fun u => ?_, fun u => ?_, h.nodup, fun u => ?_⟩
        · by_cases hu : u = t
          · subst hu; rw [goto_self]; trivial
          · rw [goto_ne _ _ hu]; exact h.pc u
        · by_cases hu : u = t
          · subst hu; rw [goto_self]
            show u ∈ s.readers ↔ _
            rw [h.reads u, hrd]; simp [CPc.reads]
          · rw [goto_ne _ _ hu]; exact h.reads u
        · show some t = some u ↔ _
          by_cases hu : u = t
          · subst hu; rw [goto_self]; simp [CPc.writes]
          · rw [goto_ne _ _ hu]
            show some t = some u ↔ (s.pc u).writes = true
            rw [← h.writes u, hw0]
            simp [Ne.symm hu]
      · cases hm
  case h_3 op id hpc =>
    rw [hpc] at hf
    exact fine_look h huq hf.1 hf.2 (by rw [hpc]; rfl) (by rw [hpc]; rfl) hm
  case h_4 op k hpc =>
    rw [hpc] at hf
    split at hm
    · cases hm
    · split at hm
      · rename_i resp a' ops out hu
        cases hm
        exact h.set (p := .leave op resp) trivial (use_within hf.1 hu) (by rw [hpc]; rfl) (by rw [hpc]; rfl)
      · cases hm
  case h_5 force clk i acc hpc =>
    split at hm
    · split at hm
      · cases hm
      · rename_i id hid
        split at hm
        · cases hm
        · cases hm
          exact h.to (t := t) (p := .sweep force clk (i + 1) acc) (Nat.le_refl _) rfl trivial (fun e he => .inl he) rfl rfl
            (by rw [hpc]; rfl) (by rw [hpc]; rfl)
        · rename_i c hc
          split at hm
          · cases hm
          · cases hm
            obtain ⟨-, pos, -, hp⟩ := (getAgg_iff _ _ _).1 hc
            exact h.set (p := .swept force clk i id c.ref acc) (huq.lt pos c hp) (by simp [AOp.vals]) (by rw [hpc]; rfl)
              (by rw [hpc]; rfl)
    · cases hm
      refine ⟨h.log, fun u => ?_, fun u => ?_, h.nodup.erase _, fun u => ?_⟩
      · by_cases hu : u = t
        · subst hu; rw [goto_self]; trivial
        · rw [goto_ne _ _ hu]; exact h.pc u
      · show u ∈ s.readers.erase t ↔ _
        rw [h.nodup.mem_erase_iff]
        by_cases hu : u = t
        · subst hu; rw [goto_self]; simp [CPc.reads]
        · rw [goto_ne _ _ hu]
          simp only [ne_eq, hu, not_false_eq_true, true_and]
          exact h.reads u
      · by_cases hu : u = t
        · subst hu; rw [goto_self]
          show s.writer = some u ↔ _
          rw [h.writes u, hpc]; simp [CPc.writes]
        · rw [goto_ne _ _ hu]; exact h.writes u
  case h_6 force clk i id k acc hpc =>
    split at hm
    · cases hm
    · split at hm
      · cases hm
      · cases hm
        refine h.set trivial ?_ (by rw [hpc]; rfl) (by rw [hpc]; rfl)
        intro op hop
        rw [List.mem_singleton] at hop
        subst hop
        cases force <;> simp [AOp.vals]
  case h_7 v i hpc =>
    split at hm
    · split at hm
      · cases hm
        exact h.to (t := t) (p := .enab v (i + 1)) (Nat.le_refl _) rfl trivial (fun e he => .inl he) rfl rfl
          (by rw [hpc]; rfl) (by rw [hpc]; rfl)
      · cases hm
        exact h.set trivial (by simp [AOp.vals]) (by rw [hpc]; rfl) (by rw [hpc]; rfl)
    · cases hm
      refine ⟨h.log, fun u => ?_, fun u => ?_, h.nodup, fun u => ?_⟩
      · by_cases hu : u = t
        · subst hu; rw [goto_self]; trivial
        · rw [goto_ne _ _ hu]; exact h.pc u
      · by_cases hu : u = t
        · subst hu; rw [goto_self]
          show u ∈ s.readers ↔ _
          rw [h.reads u, hpc]; simp [CPc.reads]
        · rw [goto_ne _ _ hu]; exact h.reads u
      · by_cases hu : u = t
        · subst hu; rw [goto_self]; simp [CPc.writes, CReg.goto]
        · rw [goto_ne _ _ hu]
          show none = some u ↔ (s.pc u).writes = true
          have hwt := (h.writes t).2 (by rw [hpc]; rfl)
          rw [← h.writes u, hwt]
          simp [Ne.symm hu]
  case h_8 op resp hpc =>
    cases hm
    exact h.to (t := t) (p := .idle) (Nat.le_refl _) rfl trivial (fun e he => .inl he) rfl rfl (by rw [hpc]; rfl) (by rw [hpc]; rfl)

/-- In every state that threads can bring a registry to. -/
theorem fine_reach {P : RegOp → Prop} (hP : ∀ op, P op → op.within m mx) {s : CReg T}
    (h : ReflTransGen (CReg.Step env P) (CReg.init (Registry.new opt)) s) : AllFine m mx s := by
  induction h with
  | refl => exact ⟨by simp [CReg.init], fun _ => trivial, by simp [CReg.init, CPc.reads], by simp [CReg.init], by simp [CReg.init, CPc.writes]⟩
  | @tail s s' hreach hs ih =>
    cases hs with
    | call t op hp hi =>
      exact ih.to (t := t) (p := .want op) (Nat.le_refl _) rfl (hP op hp) (fun e he => .inl he) rfl rfl (by rw [hi]; rfl) (by rw [hi]; rfl)
    | move _ t hm => exact ih.move (serial_reach hreach).uniq hm

/-! ### How far a call is from its end -/

/-- The moves that a thread has left at most, with `n` positions in the registry. -/
def CPc.left (n : Nat) : CPc → Nat
  | .idle => 0
  | .want (.popAll ..) => 2 * n + 3
  | .want (.enable _) => n + 3
  | .want _ => 4
  | .named .. => 3
  | .have .. => 2
  | .sweep _ _ i _ => 2 * (n - i) + 2
  | .swept _ _ i _ _ _ => 2 * (n - (i + 1)) + 3
  | .enab _ i => n - i + 2
  | .leave .. => 1

/-- A thread that may have to wait for the registry lock. -/
def CPc.waits : CPc → Bool
  | .want _ => true
  | .named .. => true
  | _ => false

/-- The names a call may yet introduce. -/
def CPc.fresh : CPc → Nat
  | .want _ => 1
  | _ => 0

theorem create_next {r r' : Registry} {q : Ask} {name : Name} {now : Int} {id : Nat} (h : r.createAggregator env q name now = .ok (id, r')) :
    r'.nextRef ≤ r.nextRef + 1 := by
  unfold createAggregator at h
  split at h
  · cases h; omega
  · obtain ⟨p, -, h2⟩ := bind_inv h
    split at h2
    · cases h2; simp
    · obtain ⟨a, -, h4⟩ := bind_inv h2
      cases h4
      simp

theorem del_next {r r' : Registry} {name : Name} {b : Bool} (h : r.del name = .ok (b, r')) : r'.nextRef = r.nextRef := by
  rcases del_split h with ⟨-, -, rfl⟩ | ⟨pos, -, -, -, -, rfl⟩ <;> rfl

omit [Fintype T] in
theorem own_look {s s' : CReg T} {t : T} {op : RegOp} {id : Nat} (h : s.look t op id = some s') :
    (s'.pc t).left s'.r.agarr.length ≤ 2 ∧ s'.r.nextRef = s.r.nextRef ∧ (s'.pc t).fresh = 0 ∧ (s'.pc t).waits = false := by
  unfold CReg.look at h
  split at h
  · split at h <;> cases h <;> (simp only [goto_self]; exact ⟨by simp [CPc.left], rfl, rfl, rfl⟩)
  · cases h

omit [Fintype T] in
theorem own_create {s s' : CReg T} {t : T} {q : Ask} {name : Name} {now : Int} {next : Nat → CPc}
    (hl : ∀ id n, (next id).left n ≤ 3) (hf : ∀ id, (next id).fresh = 0)
    (h : s.create env t q name now next = some s') :
    (s'.pc t).left s'.r.agarr.length ≤ 3 ∧ s'.r.nextRef ≤ s.r.nextRef + 1 ∧ (s'.pc t).fresh = 0 := by
  unfold CReg.create at h
  split at h
  · split at h
    · rename_i id r hc
      cases h
      simp only [goto_self]
      exact ⟨hl id _, create_next hc, hf id⟩
    · cases h
  · cases h

omit [Fintype T] in
theorem len_set (s : CReg T) (t : T) (k : Nat) (a : Aggregator) (ops : List AOp) (out : List AggData) (p : CPc) :
    ((s.setAgg t k a ops out).goto t p).r.agarr.length = s.r.agarr.length := by
  simp [CReg.setAgg, CReg.goto, Registry.update]

/-- What a move of a thread does for its own call. -/
theorem move_own {s s' : CReg T} {t : T} (hm : s.move env t = some s') :
    (s'.pc t).left s'.r.agarr.length < (s.pc t).left s.r.agarr.length ∧
      s'.r.nextRef + (s'.pc t).fresh ≤ s.r.nextRef + (s.pc t).fresh ∧ ((s'.pc t).waits = true → (s.pc t).waits = true) := by
  unfold CReg.move at hm
  split at hm
  case h_1 => cases hm
  case h_2 op hpc =>
    rw [hpc]
    have lk : ∀ {id : Nat} {op : RegOp}, s.look t op id = some s' → (s'.pc t).left s'.r.agarr.length < 4 ∧
        s'.r.nextRef + (s'.pc t).fresh ≤ s.r.nextRef + 1 ∧ ((s'.pc t).waits = true → true = true) := by
      intro id op h
      obtain ⟨h1, h2, h3, -⟩ := own_look h
      exact ⟨by omega, by omega, fun _ => rfl⟩
    have cr : ∀ {q : Ask} {name : Name} {now : Int} {next : Nat → CPc}, (∀ id n, (next id).left n ≤ 3) → (∀ id, (next id).fresh = 0) →
        s.create env t q name now next = some s' → (s'.pc t).left s'.r.agarr.length < 4 ∧
        s'.r.nextRef + (s'.pc t).fresh ≤ s.r.nextRef + 1 ∧ ((s'.pc t).waits = true → true = true) := by
      intro q name now next h1 h2 h
      obtain ⟨h1, h2, h3⟩ := own_create h1 h2 h
      exact ⟨by omega, by omega, fun _ => rfl⟩
    cases op
    case create q n now => exact cr (fun _ _ => by simp [CPc.left]) (fun _ => rfl) hm
    case addData q n c1 c2 rd => exact cr (fun _ _ => by simp [CPc.left]) (fun _ => rfl) hm
    case pusherName q n now hd => exact cr (fun _ _ => by simp [CPc.left]) (fun _ => rfl) hm
    case addId id c1 c2 now v n => exact lk hm
    case pop id => exact lk hm
    case forcePop id => exact lk hm
    case pusherId id hd => exact lk hm
    case direct id op => exact lk hm
    all_goals
      unfold CReg.start at hm
      simp only at hm
      split at hm
    case call.isTrue => cases hm; simp only [goto_self]; exact ⟨by simp [CPc.left], by simp [CPc.fresh, CReg.goto], fun _ => rfl⟩
    case call.isFalse => cases hm; simp only [goto_self]; exact ⟨by simp [CPc.left], by simp [CPc.fresh, CReg.goto], fun _ => rfl⟩
    case del.isTrue =>
      split at hm
      · rename_i b r hd
        cases hm
        simp only [goto_self]
        have := del_next hd
        exact ⟨by simp [CPc.left], by simp only [CPc.fresh, CReg.goto]; omega, fun _ => rfl⟩
      · cases hm
    case getName.isTrue => cases hm; simp only [goto_self]; exact ⟨by simp [CPc.left], by simp [CPc.fresh, CReg.goto], fun _ => rfl⟩
    case setInit.isTrue =>
      cases hm; simp only [goto_self]
      exact ⟨by simp [CPc.left], by simp [CPc.fresh, CReg.goto, Registry.setInitializer], fun _ => rfl⟩
    case popAll.isTrue => cases hm; simp only [goto_self]; exact ⟨by simp [CPc.left, CReg.goto], by simp [CPc.fresh, CReg.goto], fun _ => rfl⟩
    case enable.isTrue => cases hm; simp only [goto_self]; exact ⟨by simp [CPc.left, CReg.goto], by simp [CPc.fresh, CReg.goto], fun _ => rfl⟩
    all_goals cases hm
  case h_3 op id hpc =>
    rw [hpc]
    obtain ⟨h1, h2, h3, -⟩ := own_look hm
    exact ⟨Nat.lt_of_le_of_lt h1 (Nat.lt_succ_self 2), by omega, fun _ => rfl⟩
  case h_4 op k hpc =>
    rw [hpc]
    split at hm
    · cases hm
    · split at hm
      · cases hm
        simp only [goto_self]
        exact ⟨by simp [CPc.left], by simp [CPc.fresh, CReg.goto, CReg.setAgg, Registry.update], by simp [CPc.waits]⟩
      · cases hm
  case h_5 force clk i acc hpc =>
    rw [hpc]
    split at hm
    · rename_i hi
      split at hm
      · cases hm
      · rename_i id hid
        split at hm
        · cases hm
        · cases hm
          simp only [goto_self]
          exact ⟨by simp only [CPc.left, CReg.goto]; omega, by simp [CPc.fresh, CReg.goto], by simp [CPc.waits]⟩
        · rename_i c hc
          split at hm
          · cases hm
          · cases hm
            simp only [goto_self, len_set]
            exact ⟨by simp only [CPc.left]; omega, by simp [CPc.fresh, CReg.goto, CReg.setAgg, Registry.update], by simp [CPc.waits]⟩
    · cases hm
      simp only [goto_self]
      exact ⟨by simp only [CPc.left]; omega, by simp [CPc.fresh, CReg.goto], by simp [CPc.waits]⟩
  case h_6 force clk i id k acc hpc =>
    rw [hpc]
    split at hm
    · cases hm
    · split at hm
      · cases hm
      · cases hm
        simp only [goto_self, len_set]
        exact ⟨by simp only [CPc.left]; omega, by simp [CPc.fresh, CReg.goto, CReg.setAgg, Registry.update], by simp [CPc.waits]⟩
  case h_7 v i hpc =>
    rw [hpc]
    split at hm
    · split at hm
      · cases hm
        simp only [goto_self]
        exact ⟨by simp only [CPc.left, CReg.goto]; omega, by simp [CPc.fresh, CReg.goto], by simp [CPc.waits]⟩
      · cases hm
        simp only [goto_self, len_set]
        exact ⟨by simp only [CPc.left]; omega, by simp [CPc.fresh, CReg.goto, CReg.setAgg, Registry.update], by simp [CPc.waits]⟩
    · cases hm
      simp only [goto_self]
      exact ⟨by simp only [CPc.left]; omega, by simp [CPc.fresh, CReg.goto], by simp [CPc.waits]⟩
  case h_8 op resp hpc =>
    rw [hpc]
    cases hm
    simp only [goto_self]
    exact ⟨by simp [CPc.left], by simp [CPc.fresh, CReg.goto], by simp [CPc.waits]⟩

/-- No other thread has the registry lock, or the thread needs it no more. -/
def CReg.Clear (s : CReg T) (t : T) : Prop :=
  (s.pc t).waits = true → ∀ u, u ≠ t → (s.pc u).reads = false ∧ (s.pc u).writes = false

omit [Fintype T] in
theorem Clear.freeW {s : CReg T} {t : T} (h : AllFine m mx s) (hc : s.Clear t) (hw : (s.pc t).waits = true) : s.freeW = true := by
  have hall : ∀ u, (s.pc u).reads = false ∧ (s.pc u).writes = false := by
    intro u
    by_cases hu : u = t
    · subst hu
      revert hw
      generalize s.pc u = p
      cases p <;> simp [CPc.waits, CPc.reads, CPc.writes]
    · exact hc hw u hu
  rw [freeW_iff]
  constructor
  · cases hx : s.writer with
    | none => rfl
    | some u => have := (h.writes u).1 hx; rw [(hall u).2] at this; cases this
  · rw [List.eq_nil_iff_forall_not_mem]
    intro u hu
    have := (h.reads u).1 hu
    rw [(hall u).1] at this; cases this

theorem Clear.move {s s' : CReg T} {t : T} (hc : s.Clear t) (hm : s.move env t = some s') : s'.Clear t := by
  intro hw u hu
  rw [(move_aside hu hm).1]
  exact hc ((move_own hm).2.2 hw) u hu

omit [Fintype T] in
theorem can_look {s : CReg T} {t : T} (hA : AllFit env opt m mx s.r) (h0 : s.r.dict.step ≠ 0) (op : RegOp) (id : Nat) (hf : s.freeW = true) :
    ∃ s', s.look t op id = some s' := by
  unfold CReg.look
  rw [if_pos (.inr (freeR_iff.2 (freeW_writer hf)))]
  rcases hA.get h0 id with e | ⟨c, e, -⟩
  · rw [e]; exact ⟨_, rfl⟩
  · rw [e]; exact ⟨_, rfl⟩

omit [Fintype T] in
theorem can_create {s : CReg T} {t : T} (hs : 0 < opt.step) (B : Reducer.Bounds env m mx) (hA : AllFit env opt m mx s.r)
    (hi : RInv opt s.r.nextRef s.r) (hr : Room opt s.r.nextRef) {q : Ask} (hq : Ask.within m mx q) (name : Name) (now : Int) (next : Nat → CPc)
    (hf : s.freeW = true) : ∃ s', s.create env t q name now next = some s' := by
  unfold CReg.create
  rw [if_pos (.inr hf)]
  obtain ⟨id, r1, h1, -⟩ := fit_create hs B hi hr hA hq name now
  rw [h1]
  exact ⟨_, rfl⟩

omit [Fintype T] [DecidableEq T] in
theorem can_use {k : Nat} {a : Aggregator} (hs : 0 < opt.step) (B : Reducer.Bounds env m mx) (f : Fit env opt m mx a) {op : RegOp}
    (hop : op.within m mx) (hu : op.uses) : ∃ x, CReg.use env k a op = .ok x := by
  cases op <;> simp only [RegOp.uses] at hu <;> simp only [CReg.use]
  case addId id c1 c2 now v n =>
    obtain ⟨b, a', h1, -⟩ := f.add hs B c1 c2 now (.one v n) hop
    simp only [h1, bind_ok']; exact ⟨_, rfl⟩
  case addData q n c1 c2 rd =>
    obtain ⟨b, a', h1, -⟩ := f.add hs B c1 c2 rd.ts (.reduced rd) hop.2
    simp only [h1, bind_ok']; exact ⟨_, rfl⟩
  case pop id => exact ⟨_, rfl⟩
  case forcePop id =>
    obtain ⟨d, a', h1, -⟩ := f.forcePop hs B
    simp only [h1, bind_ok']; exact ⟨_, rfl⟩
  case pusherId => exact ⟨_, rfl⟩
  case pusherName => exact ⟨_, rfl⟩
  case call p c1 c2 ts x =>
    unfold Aggregator.Pusher.call
    by_cases hc : p.p.token = true ∧ a.alive = true
    · obtain ⟨b, out, a', h1, -⟩ := f.push hs B c1 c2 ts x p.p.handler hop
      simp only [if_pos hc, h1, bind_ok']; exact ⟨_, rfl⟩
    · simp only [if_neg hc, bind_ok']; exact ⟨_, rfl⟩
  case direct id op =>
    obtain ⟨o, h1, -⟩ := f.exec hs B op hop
    simp only [h1, bind_ok']; exact ⟨_, rfl⟩

/-- A thread in a call can go on unless another one has the registry lock: what it takes. -/
theorem can_go (hs : 0 < opt.step) (B : Reducer.Bounds env m mx) {s : CReg T} (hfine : AllFine m mx s) (hi : RInv opt s.r.nextRef s.r)
    (huq : Uniq s.r) (hall : ∀ k, k < s.r.nextRef → ∃ a, s.aggOf k = some a) (hfit : ∀ k a, s.aggOf k = some a → Fit env opt m mx a)
    (hr : Room opt s.r.nextRef) {t : T} (hne : s.pc t ≠ .idle) (hc : s.Clear t) : ∃ s', s.move env t = some s' := by
  have hA : AllFit env opt m mx s.r := fun p c hc => hfit _ _ (agg_at huq (k := c.ref) (a := c.agg) ⟨p, hc⟩)
  have h0 : s.r.dict.step ≠ 0 := by rw [hi.step]; have := hr.1; omega
  have hf := hfine.pc t
  have hW := Clear.freeW hfine hc
  unfold CReg.move
  revert hne hf hW
  generalize s.pc t = pc
  intro hne hf hW
  cases pc with
  | idle => exact absurd rfl hne
  | want op =>
    have hw := hW rfl
    have hwr := freeW_writer hw
    simp only
    cases op <;> simp only [CReg.start]
    case create q n now => exact can_create hs B hA hi hr hf n now _ hw
    case addData q n c1 c2 rd => exact can_create hs B hA hi hr hf.1 n rd.ts _ hw
    case pusherName q n now hd => exact can_create hs B hA hi hr hf n now _ hw
    case addId id c1 c2 now v n => exact can_look hA h0 _ id hw
    case pop id => exact can_look hA h0 _ id hw
    case forcePop id => exact can_look hA h0 _ id hw
    case pusherId id hd => exact can_look hA h0 _ id hw
    case direct id op => exact can_look hA h0 _ id hw
    case call p c1 c2 ts x => split <;> exact ⟨_, rfl⟩
    case getName id => rw [if_pos (freeR_iff.2 hwr)]; exact ⟨_, rfl⟩
    case setInit v => rw [if_pos hw]; exact ⟨_, rfl⟩
    case del name =>
      rw [if_pos hw]
      obtain ⟨r1, h1⟩ := del_total hi hr name
      rw [h1]; exact ⟨_, rfl⟩
    case popAll force clk => rw [if_pos (freeR_iff.2 hwr)]; exact ⟨_, rfl⟩
    case enable v => rw [if_pos hw]; exact ⟨_, rfl⟩
  | named op id => exact can_look hA h0 op id (hW rfl)
  | «have» op k =>
    obtain ⟨a, ha⟩ := hall k hf.2.2
    obtain ⟨x, hx⟩ := can_use (k := k) hs B (hfit k a ha) hf.1 hf.2.1
    simp only [ha, hx]
    exact ⟨_, rfl⟩
  | sweep force clk i acc =>
    simp only
    split
    · have e : s.r.dict.pos2id i = .ok ((i * s.r.dict.step + s.r.dict.counter % s.r.dict.step) % idMod) := by
        unfold Dict.pos2id; rw [if_neg h0]
      rw [e]
      simp only
      rcases hA.get h0 ((i * s.r.dict.step + s.r.dict.counter % s.r.dict.step) % idMod) with e | ⟨c, e, f⟩
      · rw [e]; exact ⟨_, rfl⟩
      · obtain ⟨b, out, a1, e1, -⟩ := f.separate hs B (clk ((i * s.r.dict.step + s.r.dict.counter % s.r.dict.step) % idMod)) 0 false force
        simp only [e, e1]
        exact ⟨_, rfl⟩
    · exact ⟨_, rfl⟩
  | swept force clk i id k acc =>
    obtain ⟨a, ha⟩ := hall k hf
    have f := hfit k a ha
    simp only [ha]
    cases force with
    | false => exact ⟨_, rfl⟩
    | true =>
      obtain ⟨d, a1, e1, -⟩ := f.forcePop hs B
      simp only [if_true, e1]
      exact ⟨_, rfl⟩
  | enab v i =>
    simp only
    split
    · split <;> exact ⟨_, rfl⟩
    · exact ⟨_, rfl⟩
  | leave op resp => exact ⟨_, rfl⟩

/-- A thread in a call can go on unless another one has the registry lock. -/
theorem can_move {P : RegOp → Prop} (hs : 0 < opt.step) (B : Reducer.Bounds env m mx) (hP : ∀ op, P op → op.within m mx) {s : CReg T}
    (h : ReflTransGen (CReg.Step env P) (CReg.init (Registry.new opt)) s) (hr : Room opt s.r.nextRef) {t : T} (hne : s.pc t ≠ .idle)
    (hc : s.Clear t) : ∃ s', s.move env t = some s' := by
  have hser := serial_reach h
  have hfine := fine_reach (m := m) (mx := mx) hP h
  exact can_go hs B hfine (told_reach h hr).1.rinv hser.uniq (fun k hk => (hser.all k).1 hk) (fun k a ha => hfine.fit hs B hser ha) hr hne hc

/-! ### C170 -/

/-- A thread that can not go on is in no call, or waits for the registry lock while a thread that has it can go on. -/
theorem C170_waits (env : Env) (P : RegOp → Prop) (opt : RegistryOpts) (s : CReg T) (m mx : Int) (B : Reducer.Bounds env m mx)
    (hs : 0 < opt.step) (hP : ∀ op, P op → op.within m mx) (h : ReflTransGen (CReg.Step env P) (CReg.init (Registry.new opt)) s)
    (hr : Room opt s.r.nextRef) (t : T) (hm : s.move env t = none) :
    s.pc t = .idle ∨ (s.pc t).waits = true ∧ ∃ u, u ≠ t ∧ (u ∈ s.readers ∨ s.writer = some u) ∧ ∃ s', s.move env u = some s' := by
  by_cases hi : s.pc t = .idle
  · exact .inl hi
  right
  have hfine := fine_reach (m := m) (mx := mx) hP h
  have hc : ¬ s.Clear t := fun hc => by
    obtain ⟨s', h'⟩ := can_move hs B hP h hr hi hc
    rw [hm] at h'; cases h'
  simp only [CReg.Clear, not_forall] at hc
  obtain ⟨hw, u, hu, hx⟩ := hc
  have hor : (s.pc u).reads = true ∨ (s.pc u).writes = true := by
    cases h1 : (s.pc u).reads with
    | true => exact .inl rfl
    | false =>
      cases h2 : (s.pc u).writes with
      | true => exact .inr rfl
      | false => exact absurd ⟨h1, h2⟩ hx
  refine ⟨hw, u, hu, hor.imp (hfine.reads u).2 (hfine.writes u).2, can_move hs B hP h hr ?_ ?_⟩
  · intro e; rw [e] at hor; rcases hor with x | x <;> cases x
  · intro hw'
    revert hor hw'
    generalize s.pc u = p
    cases p <;> simp [CPc.waits, CPc.reads, CPc.writes]

/-- A thread left alone ends its call, unless another one has the registry lock. -/
theorem solo {P : RegOp → Prop} (hs : 0 < opt.step) (B : Reducer.Bounds env m mx) (hP : ∀ op, P op → op.within m mx) (t : T) (n : Nat) :
    ∀ {s : CReg T}, ReflTransGen (CReg.Step env P) (CReg.init (Registry.new opt)) s → Room opt (s.r.nextRef + (s.pc t).fresh) → s.Clear t →
      (s.pc t).left s.r.agarr.length ≤ n → ∃ k ≤ n, ∃ s', CReg.play env s (List.replicate k (.go t)) = some s' ∧ s'.pc t = .idle ∧
        (∀ u, u ≠ t → s'.pc u = s.pc u) ∧ s'.r.nextRef ≤ s.r.nextRef + (s.pc t).fresh ∧
        ReflTransGen (CReg.Step env P) (CReg.init (Registry.new opt)) s' := by
  induction n with
  | zero =>
    intro s h hr hc hl
    refine ⟨0, Nat.le_refl _, s, rfl, ?_, fun _ _ => rfl, by omega, h⟩
    revert hl
    generalize s.pc t = p
    cases p with
    | want op => cases op <;> simp [CPc.left]
    | _ => simp [CPc.left]
  | succ n ih =>
    intro s h hr hc hl
    by_cases hi : s.pc t = .idle
    · exact ⟨0, by omega, s, rfl, hi, fun _ _ => rfl, by omega, h⟩
    obtain ⟨s1, h1⟩ := can_move hs B hP h (hr.mono (by omega)) hi hc
    obtain ⟨o1, o2, o3⟩ := move_own h1
    obtain ⟨k, hk, s', e1, e2, e3, e4, e5⟩ := ih (h.tail (.move _ _ t h1)) (hr.mono o2) (Clear.move hc h1) (by omega)
    refine ⟨k + 1, by omega, s', ?_, e2, fun u hu => ?_, ?_, e5⟩
    · rw [List.replicate_succ]
      simp only [CReg.play, h1]
      exact e1
    · rw [e3 u hu, (move_aside hu h1).1]
    · omega

theorem fresh_le (p : CPc) : p.fresh ≤ 1 := by
  cases p <;> simp [CPc.fresh]

/-- A thread that goes on alone comes to the end of its call within so many moves as its call visits positions (twice, for `pop_all`), and four
more, unless it needs the registry lock and another one has it. -/
theorem C170_ends (env : Env) (P : RegOp → Prop) (opt : RegistryOpts) (s : CReg T) (m mx : Int) (B : Reducer.Bounds env m mx)
    (hs : 0 < opt.step) (hP : ∀ op, P op → op.within m mx) (h : ReflTransGen (CReg.Step env P) (CReg.init (Registry.new opt)) s)
    (hr : Room opt (s.r.nextRef + 1)) (t : T)
    (hc : t ∈ s.readers ∨ s.writer = some t ∨ ∀ u, u ≠ t → u ∉ s.readers ∧ s.writer ≠ some u) :
    ∃ k ≤ 2 * s.r.agarr.length + 4, ∃ s', CReg.play env s (List.replicate k (.go t)) = some s' ∧ s'.pc t = .idle ∧
      ∀ u, u ≠ t → s'.pc u = s.pc u := by
  have hfine := fine_reach (m := m) (mx := mx) hP h
  have hcl : s.Clear t := by
    intro hw u hu
    rcases hc with x | x | x
    · have := (hfine.reads t).1 x
      revert hw this
      generalize s.pc t = p
      cases p <;> simp [CPc.waits, CPc.reads]
    · have := (hfine.writes t).1 x
      revert hw this
      generalize s.pc t = p
      cases p <;> simp [CPc.waits, CPc.writes]
    · obtain ⟨h1, h2⟩ := x u hu
      exact ⟨by simpa using mt (hfine.reads u).2 h1, by simpa using mt (hfine.writes u).2 h2⟩
  have hl : (s.pc t).left s.r.agarr.length ≤ 2 * s.r.agarr.length + 4 := by
    generalize s.pc t = p
    cases p with
    | want op => cases op <;> simp only [CPc.left] <;> omega
    | _ => simp only [CPc.left]; omega
  obtain ⟨k, hk, s', h1, h2, h3, -⟩ := solo hs B hP t _ h (hr.mono (by have := fresh_le (s.pc t); omega)) hcl hl
  exact ⟨k, hk, s', h1, h2, h3⟩

omit [Fintype T] in
theorem play_append [Fintype T] {s s1 : CReg T} (l l' : List (CReg.Turn T)) (h : CReg.play env s l = some s1) :
    CReg.play env s (l ++ l') = CReg.play env s1 l' := by
  induction l generalizing s with
  | nil => cases h; rfl
  | cons x l ih =>
    cases x with
    | call t op =>
      rw [List.cons_append]
      simp only [CReg.play] at h ⊢
      split at h
      · exact ih h
      · cases h
    | go t =>
      rw [List.cons_append]
      simp only [CReg.play] at h ⊢
      split at h
      · exact ih h
      · cases h

theorem drain {P : RegOp → Prop} (hs : 0 < opt.step) (B : Reducer.Bounds env m mx) (hP : ∀ op, P op → op.within m mx) (n : Nat) :
    ∀ {s : CReg T} (A : Finset T), A.card ≤ n → (∀ t, t ∉ A → s.pc t = .idle) →
      ReflTransGen (CReg.Step env P) (CReg.init (Registry.new opt)) s → Room opt (s.r.nextRef + n) →
      ∃ (ts : List T) (s' : CReg T), CReg.play env s (ts.map .go) = some s' ∧ ∀ t, s'.pc t = .idle := by
  induction n with
  | zero =>
    intro s A hA hi h hr
    have : A = ∅ := Finset.card_eq_zero.1 (by omega)
    subst this
    exact ⟨[], s, rfl, fun t => hi t (Finset.notMem_empty t)⟩
  | succ n ih =>
    intro s A hA hi h hr
    by_cases hall : ∀ t, s.pc t = .idle
    · exact ⟨[], s, rfl, hall⟩
    have pick : ∃ t, s.pc t ≠ .idle ∧ s.Clear t := by
      by_cases hh : ∃ u, (s.pc u).reads = true ∨ (s.pc u).writes = true
      · obtain ⟨u, hor⟩ := hh
        refine ⟨u, (fun e => by rw [e] at hor; rcases hor with x | x <;> cases x), fun hw' => ?_⟩
        revert hor hw'
        generalize s.pc u = p
        cases p <;> simp [CPc.waits, CPc.reads, CPc.writes]
      · simp only [not_forall] at hall
        obtain ⟨t, ht⟩ := hall
        simp only [not_exists, not_or, Bool.not_eq_true] at hh
        exact ⟨t, ht, fun _ u _ => hh u⟩
    obtain ⟨t, hne, hc⟩ := pick
    obtain ⟨k, -, s1, h1, h2, h3, h4, h5⟩ := solo hs B hP t _ h (hr.mono (by have := fresh_le (s.pc t); omega)) hc (Nat.le_refl _)
    have htA : t ∈ A := by
      by_contra hx
      exact hne (hi t hx)
    obtain ⟨ts, s', h6, h7⟩ := ih (s := s1) (A.erase t) (by rw [Finset.card_erase_of_mem htA]; omega)
      (fun u hu => by
        by_cases he : u = t
        · subst he; exact h2
        · rw [h3 u he]
          exact hi u fun hx => hu (Finset.mem_erase.2 ⟨he, hx⟩)) h5 (hr.mono (by have := fresh_le (s.pc t); omega))
    refine ⟨List.replicate k t ++ ts, s', ?_, h7⟩
    rw [List.map_append, List.map_replicate, play_append _ _ h1]
    exact h6

/-- Whatever the threads are in the middle of, there is an order in which they go on that ends all their calls. -/
theorem C170_drain (env : Env) (P : RegOp → Prop) (opt : RegistryOpts) (s : CReg T) (m mx : Int) (B : Reducer.Bounds env m mx)
    (hs : 0 < opt.step) (hP : ∀ op, P op → op.within m mx) (h : ReflTransGen (CReg.Step env P) (CReg.init (Registry.new opt)) s)
    (hr : Room opt (s.r.nextRef + Fintype.card T)) :
    ∃ (ts : List T) (s' : CReg T), CReg.play env s (ts.map .go) = some s' ∧ ∀ t, s'.pc t = .idle :=
  drain hs B hP _ (s := s) Finset.univ (Nat.le_refl _) (fun t ht => absurd (Finset.mem_univ t) ht) h hr

/-! ### Two threads -/

/-- The books of the aggregator of `exCalls`: three events by two threads, one page, handed over by a forced pop. -/
example : (match CReg.play exactEnv (CReg.init (Registry.new exConcOpt)) (exCalls ++ exCalls') with
    | some s => decide ((Aggregator.fullbook exConcOpt.toAggregatorOpts 1000 true (askedOf s.log 0)).made.map (fun x => (x.time, x.events.length)) =
        [(1000, 3)])
    | none => false) = true := by decide +kernel

/-- In the middle: `false` is in `pop_all`, so `true` waits with `create`. -/
def exStuck : List (CReg.Turn Bool) := exCalls ++ [.call true (.create { clk := 1000 } ['b'] 1007)]

example : (match CReg.play exactEnv (CReg.init (Registry.new exConcOpt)) exStuck with
    | some s => (s.move exactEnv true).isNone && (s.move exactEnv false).isSome && decide (s.readers = [false])
    | none => false) = true := by decide +kernel

/-- Both calls end once `false` goes on. -/
example : (match CReg.play exactEnv (CReg.init (Registry.new exConcOpt)) (exStuck ++ [.go false, .go false, .go false, .go true, .go true]) with
    | some s => match s.pc true, s.pc false with
      | .idle, .idle => decide (s.r.nextRef = 2)
      | _, _ => false
    | none => false) = true := by decide +kernel

end Registry
end Wrtstat
