/-
C132: coarse windows add up fine ones.
-/
import Verif.Props.Aggregator
import Verif.Props.Scale
import Verif.Lemmas.Shift
import Verif.Lemmas.RegistryMore

namespace Wrtstat

set_option autoImplicit false

open Aggregator

/-- The records of the windows that begin in `[lo, hi)`. -/
def recordsIn (l : List AggData) (lo hi : Int) : List AggData := l.filter fun d => decide (lo ≤ d.ts ∧ d.ts < hi)

/-- The claim: of two aggregators fed with the same, one with a step `k` times as long, every record of the latter tells the number of
events told by the records of the former in its window, if the former is past that window. -/
def C132_FullClaim : Prop :=
  ∀ (opt opt' : AggregatorOpts) (k : Int) (a0 b0 : Aggregator) (ops : List AOp) (o o' : AObs), 0 < opt.step → 0 < k → opt'.step = k * opt.step →
    opt'.resolution = opt.resolution → opt.soiled = 0 → opt'.soiled = 0 →
    (∃ ts : Int, 0 ≤ ts ∧ Aggregator.new opt 0 0 ts = .ok a0 ∧ Aggregator.new opt' 0 0 ts = .ok b0) →
    (∀ op ∈ ops, op.clockOk ∧ op.forced = false ∧ op.handed = false) →
    execAll exactEnv { a := a0 } ops = .ok o → execAll exactEnv { a := b0 } ops = .ok o' →
    ∀ d ∈ o'.received ++ o'.a.agList, d.ts + opt'.step ≤ o.a.sep.currentTime →
      d.count = logCount (recordsIn (o.received ++ o.a.agList) d.ts (d.ts + opt'.step))

/-- The aggregators with steps 10 and 20 of the counterexample. -/
def exFine : AggregatorOpts := { limit := 8, levels := 2, step := 10, resolution := .seconds }

def exCoarse : AggregatorOpts := { limit := 8, levels := 2, step := 20, resolution := .seconds }

def exFineA : Aggregator :=
  { sep := { reducer := Reducer.new exFine.toReducerOpts, step := 10, next := 1010, resolution := .seconds }, outSize := 128 }

def exCoarseA : Aggregator :=
  { sep := { reducer := Reducer.new exCoarse.toReducerOpts, step := 20, next := 1020, resolution := .seconds }, outSize := 128 }

/-- An event that is late for a window of ten seconds may be in time for one of twenty. -/
theorem C132_refuted : ¬ C132_FullClaim := by
  intro h
  have r1 : (execAll exactEnv { a := exFineA } [.add 0 0 1012 (.one 5 1), .add 0 0 1008 (.one 6 1), .add 0 0 1025 (.one 7 1)]).toOption.map
      (fun o => ((o.received ++ o.a.agList).map (fun d => (d.ts, d.count)), o.a.sep.currentTime)) = some ([(1010, 1)], 1020) := by decide +kernel
  have r2 : (execAll exactEnv { a := exCoarseA } [.add 0 0 1012 (.one 5 1), .add 0 0 1008 (.one 6 1), .add 0 0 1025 (.one 7 1)]).toOption.map
      (fun o => (o.received ++ o.a.agList).map (fun d => (d.ts, d.count))) = some [(1000, 2)] := by decide +kernel
  obtain ⟨o, e1, e2⟩ := obs_of_map r1
  obtain ⟨o', e1', e2'⟩ := obs_of_map r2
  have key := h exFine exCoarse 2 exFineA exCoarseA _ o o' (by decide) (by decide) (by decide) rfl rfl rfl
    ⟨1000, by decide, by decide +kernel, by decide +kernel⟩ (by decide) e1 e1'
  injection e2 with e2 e3
  generalize o.received ++ o.a.agList = l at *
  generalize o'.received ++ o'.a.agList = l' at *
  obtain ⟨d, hd⟩ : ∃ d, l' = [d] := List.length_eq_one_iff.1 (by rw [← List.length_map (f := fun d : AggData => (d.ts, d.count)), e2']; rfl)
  obtain ⟨x, hx⟩ : ∃ d, l = [d] := List.length_eq_one_iff.1 (by rw [← List.length_map (f := fun d : AggData => (d.ts, d.count)), e2]; rfl)
  subst hd hx
  simp only [List.map_cons, List.map_nil, List.cons.injEq, Prod.mk.injEq, and_true] at e2 e2'
  have := key d (by simp) (by rw [e2'.1, e3]; decide)
  rw [e2'.2, e2'.1] at this
  unfold recordsIn logCount at this
  rw [List.filter_cons, e2.1, if_pos (by decide)] at this
  simp [e2.2] at this

/-! ### If both record the same -/

theorem eventsIn_cons (e : Int × AddArg) (acc : List (Int × AddArg)) (lo hi : Int) :
    eventsIn (e :: acc) lo hi = if lo ≤ e.1 ∧ e.1 < hi then e.2 :: eventsIn acc lo hi else eventsIn acc lo hi := by
  unfold eventsIn
  rw [List.filter_cons]
  by_cases h : lo ≤ e.1 ∧ e.1 < hi
  · rw [if_pos h, if_pos (by simpa using h)]; rfl
  · rw [if_neg h, if_neg (by simpa using h)]

/-- Windows that cover every event of `[lo, hi)` once, and no other event, add up to `[lo, hi)`. -/
theorem sum_windows (w : AddArg → Nat) (s : Int) (l : List AggData) (lo hi : Int) (acc : List (Int × AddArg))
    (h : ∀ e ∈ acc, l.countP (fun d => decide (d.ts ≤ e.1 ∧ e.1 < d.ts + s)) = if lo ≤ e.1 ∧ e.1 < hi then 1 else 0) :
    (l.map fun d => ((eventsIn acc d.ts (d.ts + s)).map w).sum).sum = ((eventsIn acc lo hi).map w).sum := by
  induction acc with
  | nil => simp [eventsIn]
  | cons e acc ih =>
    have ih := ih (fun x hx => h x (List.mem_cons_of_mem _ hx))
    have he := h e List.mem_cons_self
    have key : ∀ l : List AggData, (l.map fun d => ((eventsIn (e :: acc) d.ts (d.ts + s)).map w).sum).sum =
        l.countP (fun d => decide (d.ts ≤ e.1 ∧ e.1 < d.ts + s)) * w e.2 + (l.map fun d => ((eventsIn acc d.ts (d.ts + s)).map w).sum).sum := by
      intro l
      induction l with
      | nil => simp
      | cons d l ihl =>
        rw [List.map_cons, List.sum_cons, ihl, List.countP_cons, List.map_cons, List.sum_cons, eventsIn_cons]
        by_cases hd : d.ts ≤ e.1 ∧ e.1 < d.ts + s
        · rw [if_pos hd, if_pos (by simpa using hd), List.map_cons, List.sum_cons, Nat.add_mul, Nat.one_mul]
          omega
        · rw [if_neg hd, if_neg (by simpa using hd), Nat.add_zero]
          omega
    rw [key, ih, he, eventsIn_cons]
    by_cases hd : lo ≤ e.1 ∧ e.1 < hi
    · rw [if_pos hd, if_pos hd, List.map_cons, List.sum_cons]; omega
    · rw [if_neg hd, if_neg hd]; omega

/-- Multiples of the step that are less than a step apart are equal, or in order. -/
theorem grid_le {s a b : Int} (hs : 0 < s) (ha : s ∣ a) (hb : s ∣ b) (h : a < b + s) : a ≤ b := by
  obtain ⟨x, rfl⟩ := ha
  obtain ⟨y, rfl⟩ := hb
  have : x < y + 1 := by
    have : s * x < s * (y + 1) := by rw [Int.mul_add, Int.mul_one]; exact h
    exact lt_of_mul_lt_mul_left this (le_of_lt hs)
  exact mul_le_mul_of_nonneg_left (by omega) (le_of_lt hs)

/-- In a list of increasing times on the grid, at most one window holds an instant. -/
theorem one_window {s t : Int} (hs : 0 < s) (l : List AggData) (hp : l.Pairwise fun a b => a.ts < b.ts) (hg : ∀ d ∈ l, s ∣ d.ts) :
    l.countP (fun d => decide (d.ts ≤ t ∧ t < d.ts + s)) ≤ 1 := by
  induction l with
  | nil => simp
  | cons d l ih =>
    have hp := List.pairwise_cons.1 hp
    have ih := ih hp.2 (fun x hx => hg x (List.mem_cons_of_mem _ hx))
    rw [List.countP_cons]
    by_cases hd : d.ts ≤ t ∧ t < d.ts + s
    · have : l.countP (fun d => decide (d.ts ≤ t ∧ t < d.ts + s)) = 0 := by
        rw [List.countP_eq_zero]
        intro x hx hc
        have hc : x.ts ≤ t ∧ t < x.ts + s := by simpa using hc
        have := grid_le hs (hg x (List.mem_cons_of_mem _ hx)) (hg d List.mem_cons_self) (by omega)
        have := hp.1 x hx
        omega
      rw [this, if_pos (by simpa using hd)]
    · rw [if_neg (by simpa using hd)]
      omega

theorem minI_le {l : List Int} {v : Int} (h : v ∈ l) : minI l ≤ v := (minI_aux l I64max).2.1 v h

theorem le_maxI {l : List Int} {v : Int} (h : v ∈ l) : v ≤ maxI l := (maxI_aux l I64min).2.1 v h

theorem allExtremes_mem {as : List AddArg} {v : Int} : v ∈ allExtremes as ↔ ∃ x ∈ as, v ∈ x.values ++ x.extremes := by
  unfold allExtremes
  exact List.mem_flatMap

theorem eventsIn_mem {acc : List (Int × AddArg)} {lo hi : Int} {x : AddArg} :
    x ∈ eventsIn acc lo hi ↔ ∃ t, (t, x) ∈ acc ∧ lo ≤ t ∧ t < hi := by
  unfold eventsIn
  constructor
  · intro h
    obtain ⟨e, he, rfl⟩ := List.mem_map.1 h
    obtain ⟨h1, h2⟩ := List.mem_filter.1 he
    exact ⟨e.1, h1, by simpa using h2⟩
  · rintro ⟨t, h1, h2⟩
    exact List.mem_map.2 ⟨(t, x), List.mem_filter.2 ⟨h1, by simpa using h2⟩, rfl⟩

theorem tdiv_tdiv_of_nonneg {s k t : Int} (hs : 0 < s) (ht : 0 ≤ t) : (t.tdiv s).tdiv k = t.tdiv (s * k) := by
  rw [Int.tdiv_eq_ediv_of_nonneg ht, Int.tdiv_eq_ediv_of_nonneg ht, Int.tdiv_eq_ediv_of_nonneg (Int.ediv_nonneg ht (le_of_lt hs)),
    Int.ediv_ediv_of_nonneg (le_of_lt hs)]

/-- Aligning to a multiple of the step needs no alignment to the step before. -/
theorem align_align {s : Int} (hs : 0 < s) (k t : Int) : align (k * s) (align s t) = align (k * s) t := by
  have key : ∀ t : Int, 0 ≤ t → (t.tdiv s * s).tdiv (k * s) = t.tdiv (k * s) := by
    intro t ht
    have h1 : 0 ≤ t.tdiv s := Int.tdiv_nonneg ht (le_of_lt hs)
    rw [Int.mul_comm k s, ← tdiv_tdiv_of_nonneg hs (mul_nonneg h1 (le_of_lt hs)), ← tdiv_tdiv_of_nonneg hs ht,
      Int.mul_tdiv_cancel _ (by omega)]
  unfold align
  rcases le_total 0 t with ht | ht
  · rw [key t ht]
  · have := key (-t) (by omega)
    rw [Int.neg_tdiv, Int.neg_tdiv, Int.neg_mul, Int.neg_tdiv] at this
    rw [Int.neg_inj.1 this]

/-- A window on the coarse grid holds the same events, whether their times are aligned to it or not. -/
theorem eventsIn_align {S T : Int} (hS : 0 < S) (hT : S ∣ T) (acc : List (Int × AddArg)) (hn : ∀ e ∈ acc, 0 ≤ e.1) :
    eventsIn (acc.map fun e => (align S e.1, e.2)) T (T + S) = eventsIn acc T (T + S) := by
  induction acc with
  | nil => rfl
  | cons e acc ih =>
    have ih := ih (fun x hx => hn x (List.mem_cons_of_mem _ hx))
    have h0 := hn e List.mem_cons_self
    rw [List.map_cons, eventsIn_cons, eventsIn_cons, ih]
    have key : (T ≤ align S e.1 ∧ align S e.1 < T + S) ↔ (T ≤ e.1 ∧ e.1 < T + S) := by
      unfold align
      rw [Int.tdiv_eq_ediv_of_nonneg h0]
      have h1 := Int.mul_ediv_add_emod e.1 S
      have h2 := Int.emod_nonneg e.1 (show S ≠ 0 by omega)
      have h3 := Int.emod_lt_of_pos e.1 hS
      rw [Int.mul_comm] at h1
      have hd : S ∣ e.1 / S * S := Dvd.intro_left _ rfl
      generalize e.1 / S * S = A at *
      constructor
      · rintro ⟨a, b⟩
        have := grid_le hS hd hT b
        omega
      · rintro ⟨a, b⟩
        have := grid_le hS hT hd (by omega)
        omega
    by_cases hd : T ≤ e.1 ∧ e.1 < T + S
    · rw [if_pos hd, if_pos (key.2 hd)]
    · rw [if_neg hd, if_neg (fun h => hd (key.1 h))]

/-- Two polled aggregators, the second with a step `k` times as long, both beginning on the grid of their step, that recorded the same
calls at non-negative times: every record of the second tells the number of events, the minimum and the maximum of the records of
the first in its window, if the first is past that window.  The histories may differ in all else: the moments of polling, the other
options, the machine. -/
theorem C132_rollup_partial (env env' : Env) (opt opt' : AggregatorOpts) (k : Int) (a0 b0 : Aggregator) (ops ops' : List AOp) (o o' : AObs)
    (hs : 0 < opt.step) (hk : 0 < k) (hks : opt'.step = k * opt.step) (h0 : Fresh env opt a0) (h0' : Fresh env' opt' b0)
    (hg : opt.step ∣ a0.sep.currentTime) (hg' : opt'.step ∣ b0.sep.currentTime)
    (hops : ∀ op ∈ ops, op.clockOk ∧ op.forced = false ∧ op.handed = false ∧ op.timeOk opt)
    (hops' : ∀ op ∈ ops', op.clockOk ∧ op.forced = false ∧ op.handed = false)
    (h : execAll env { a := a0 } ops = .ok o) (h' : execAll env' { a := b0 } ops' = .ok o')
    (hn : ∀ e ∈ o.accepted, 0 ≤ e.1) (hacc : o'.accepted = o.accepted.map fun e => (align opt'.step e.1, e.2)) :
    ∀ d ∈ o'.received ++ o'.a.agList, d.ts + opt'.step ≤ o.a.sep.currentTime →
      let fine := recordsIn (o.received ++ o.a.agList) d.ts (d.ts + opt'.step)
      d.count = logCount fine ∧ IsMinOf d.min (fine.map (·.min)) ∧ IsMaxOf d.max (fine.map (·.max)) := by
  intro d hd hlt fine
  have hs' : 0 < opt'.step := by rw [hks]; exact mul_pos hk hs
  obtain ⟨hp, hr⟩ := C22_fifo env opt a0 ops o hs h0 (fun op ho => (hops op ho).1) (fun op ho => (hops op ho).2.1)
    (fun op ho => (hops op ho).2.2.1) h
  have hcov := C22_complete env opt a0 ops o hs h0 (fun op ho => (hops op ho).1) (fun op ho => (hops op ho).2.1)
    (fun op ho => (hops op ho).2.2.2) h
  obtain ⟨_, hr'⟩ := C22_fifo env' opt' b0 ops' o' hs' h0' (fun op ho => (hops' op ho).1) (fun op ho => (hops' op ho).2.1)
    (fun op ho => (hops' op ho).2.2) h'
  obtain ⟨⟨n, hn'⟩, raw, hsum, hdel⟩ := hr' d hd
  have hT' : opt'.step ∣ d.ts := by rw [hn']; exact dvd_add hg' (Dvd.intro_left _ rfl)
  have hT : opt.step ∣ d.ts := (Dvd.intro_left k hks.symm).trans hT'
  have hTS : opt.step ∣ d.ts + opt'.step := dvd_add hT (Dvd.intro_left k hks.symm)
  have hgrid : ∀ x ∈ o.received ++ o.a.agList, opt.step ∣ x.ts := by
    intro x hx
    obtain ⟨⟨m, hm⟩, _⟩ := hr x hx
    rw [hm]; exact dvd_add hg (Dvd.intro_left _ rfl)
  have hfine : ∀ x, x ∈ fine ↔ x ∈ o.received ++ o.a.agList ∧ d.ts ≤ x.ts ∧ x.ts < d.ts + opt'.step := by
    intro x
    simp only [fine, recordsIn, List.mem_filter, decide_eq_true_eq]
  have hev : eventsIn o'.accepted d.ts (d.ts + opt'.step) = eventsIn o.accepted d.ts (d.ts + opt'.step) := by
    rw [hacc]; exact eventsIn_align hs' hT' _ hn
  rw [hev] at hsum
  -- which fine window holds an event
  have hwin : ∀ e ∈ o.accepted, d.ts ≤ e.1 → e.1 < d.ts + opt'.step → ∃ x ∈ fine, x.ts ≤ e.1 ∧ e.1 < x.ts + opt.step := by
    intro e he h1 h2
    rcases hcov e he with ⟨x, hx, h3⟩ | h3
    · refine ⟨x, (hfine x).2 ⟨hx, ?_, by omega⟩, h3⟩
      exact grid_le hs hT (hgrid x hx) (by omega)
    · omega
  have hback : ∀ x ∈ fine, x.ts + opt.step ≤ d.ts + opt'.step := by
    intro x hx
    obtain ⟨h1, _, h3⟩ := (hfine x).1 hx
    exact grid_le hs (dvd_add (hgrid x h1) (dvd_refl _)) hTS (by omega)
  have hrec : ∀ x ∈ fine, ∃ r, Summary env opt.limit opt.levels (eventsIn o.accepted x.ts (x.ts + opt.step)) r ∧ Delivered opt.outSize r x :=
    fun x hx => (hr x ((hfine x).1 hx).1).2
  have hsub : ∀ x ∈ fine, ∀ v ∈ allExtremes (eventsIn o.accepted x.ts (x.ts + opt.step)),
      v ∈ allExtremes (eventsIn o.accepted d.ts (d.ts + opt'.step)) := by
    intro x hx v hv
    obtain ⟨y, hy, hv⟩ := allExtremes_mem.1 hv
    obtain ⟨t, ht, h1, h2⟩ := eventsIn_mem.1 hy
    have := (hfine x).1 hx
    have := hback x hx
    exact allExtremes_mem.2 ⟨y, eventsIn_mem.2 ⟨t, ht, by omega, by omega⟩, hv⟩
  have hsup : ∀ v ∈ allExtremes (eventsIn o.accepted d.ts (d.ts + opt'.step)),
      ∃ x ∈ fine, v ∈ allExtremes (eventsIn o.accepted x.ts (x.ts + opt.step)) := by
    intro v hv
    obtain ⟨y, hy, hv⟩ := allExtremes_mem.1 hv
    obtain ⟨t, ht, h1, h2⟩ := eventsIn_mem.1 hy
    obtain ⟨x, hx, h3, h4⟩ := hwin (t, y) ht h1 h2
    exact ⟨x, hx, allExtremes_mem.2 ⟨y, eventsIn_mem.2 ⟨t, ht, h3, h4⟩, hv⟩⟩
  obtain ⟨x0, hx0⟩ : ∃ x, x ∈ fine := by
    obtain ⟨y, hy⟩ := List.exists_mem_of_ne_nil _ hsum.nonempty
    obtain ⟨t, ht, h1, h2⟩ := eventsIn_mem.1 hy
    obtain ⟨x, hx, _⟩ := hwin (t, y) ht h1 h2
    exact ⟨x, hx⟩
  refine ⟨?_, ?_, ?_⟩
  · rw [hdel.count, hsum.count]
    unfold sumCount logCount
    rw [← sum_windows AddArg.count opt.step fine d.ts (d.ts + opt'.step) o.accepted ?_]
    · congr 1
      apply List.map_congr_left
      intro x hx
      obtain ⟨r, h1, h2⟩ := hrec x hx
      rw [h2.count, h1.count]; rfl
    · intro e he
      have hle := one_window (t := e.1) hs fine (hp.sublist List.filter_sublist) (fun x hx => hgrid x ((hfine x).1 hx).1)
      by_cases hin : d.ts ≤ e.1 ∧ e.1 < d.ts + opt'.step
      · rw [if_pos hin]
        obtain ⟨x, hx, h3⟩ := hwin e he hin.1 hin.2
        have := List.countP_pos_iff (p := fun d : AggData => decide (d.ts ≤ e.1 ∧ e.1 < d.ts + opt.step)).2 ⟨x, hx, by simpa using h3⟩
        omega
      · rw [if_neg hin, List.countP_eq_zero]
        intro x hx hc
        have hc : x.ts ≤ e.1 ∧ e.1 < x.ts + opt.step := by simpa using hc
        have := (hfine x).1 hx
        have := hback x hx
        apply hin
        omega
  · have hlow : ∀ x ∈ fine, d.min ≤ x.min := by
      intro x hx
      obtain ⟨r, h1, h2⟩ := hrec x hx
      rw [hdel.min, hsum.min, h2.min, h1.min]
      rcases (minI_aux (allExtremes (eventsIn o.accepted x.ts (x.ts + opt.step))) I64max).2.2 with e | e
      · exact (minI_aux _ I64max).1.trans (le_of_eq e.symm)
      · exact minI_le (hsub x hx _ e)
    refine ⟨?_, by intro v hv; obtain ⟨x, hx, rfl⟩ := List.mem_map.1 hv; exact hlow x hx⟩
    rcases (minI_aux (allExtremes (eventsIn o.accepted d.ts (d.ts + opt'.step))) I64max).2.2 with e | e
    · refine List.mem_map.2 ⟨x0, hx0, le_antisymm ?_ (hlow x0 hx0)⟩
      obtain ⟨r, h1, h2⟩ := hrec x0 hx0
      rw [hdel.min, hsum.min, h2.min, h1.min]
      exact (minI_aux _ I64max).1.trans (le_of_eq e.symm)
    · obtain ⟨x, hx, hv⟩ := hsup _ e
      refine List.mem_map.2 ⟨x, hx, le_antisymm ?_ (hlow x hx)⟩
      obtain ⟨r, h1, h2⟩ := hrec x hx
      rw [hdel.min, hsum.min, h2.min, h1.min]
      exact minI_le hv
  · have hlow : ∀ x ∈ fine, x.max ≤ d.max := by
      intro x hx
      obtain ⟨r, h1, h2⟩ := hrec x hx
      rw [hdel.max, hsum.max, h2.max, h1.max]
      rcases (maxI_aux (allExtremes (eventsIn o.accepted x.ts (x.ts + opt.step))) I64min).2.2 with e | e
      · exact (le_of_eq e).trans (maxI_aux _ I64min).1
      · exact le_maxI (hsub x hx _ e)
    refine ⟨?_, by intro v hv; obtain ⟨x, hx, rfl⟩ := List.mem_map.1 hv; exact hlow x hx⟩
    rcases (maxI_aux (allExtremes (eventsIn o.accepted d.ts (d.ts + opt'.step))) I64min).2.2 with e | e
    · refine List.mem_map.2 ⟨x0, hx0, le_antisymm (hlow x0 hx0) ?_⟩
      obtain ⟨r, h1, h2⟩ := hrec x0 hx0
      rw [hdel.max, hsum.max, h2.max, h1.max]
      exact (le_of_eq e).trans (maxI_aux _ I64min).1
    · obtain ⟨x, hx, hv⟩ := hsup _ e
      refine List.mem_map.2 ⟨x, hx, le_antisymm (hlow x hx) ?_⟩
      obtain ⟨r, h1, h2⟩ := hrec x hx
      rw [hdel.max, hsum.max, h2.max, h1.max]
      exact le_maxI hv

/-! ### Events in order are recorded by both -/

/-- The calls of a client that records and polls. -/
def Calm : AOp → Prop
  | .add .. => True
  | .pop => True
  | .look => True
  | _ => False

/-- The time and the argument of a recording call, given the resolution. -/
def callOf (res : Resolution) : AOp → Option (Int × AddArg)
  | .add c _ ts x => some (meant res c ts, x)
  | _ => none

/-- Events in the order of their times are all recorded, at their aligned times. -/
theorem C132_in_order (env : Env) (opt : AggregatorOpts) (hs : 0 < opt.step) (ops : List AOp) :
    ∀ (o o' : AObs) (as : List AddArg), o.a.enabled = true → o.a.sep.step = opt.step → o.a.sep.resolution = opt.resolution →
      Reducer.GoodA env opt.toReducerOpts o.a.sep.reducer as → (∀ op ∈ ops, Calm op ∧ op.timeOk opt) →
      (∀ e ∈ ops.filterMap (callOf opt.resolution), o.a.sep.currentTime ≤ align opt.step e.1) →
      ((ops.filterMap (callOf opt.resolution)).Pairwise fun e e' => e.1 ≤ e'.1) → execAll env o ops = .ok o' →
      o'.accepted = o.accepted ++ (ops.filterMap (callOf opt.resolution)).map fun e => (align opt.step e.1, e.2) := by
  induction ops with
  | nil => intro o o' as _ _ _ _ _ _ _ h; cases h; simp
  | cons op ops ih =>
    intro o o' as hen hst hres hgood hc hcur hp h
    unfold execAll at h
    rw [List.foldlM_cons] at h
    obtain ⟨o1, hx, hf⟩ := bind_inv h
    clear h
    have hc' := fun op' h' => hc op' (List.mem_cons_of_mem op h')
    obtain ⟨hcalm, htime⟩ := hc op List.mem_cons_self
    cases op with
    | add clk1 clk2 ts x =>
      rw [List.filterMap_cons_some (f := callOf opt.resolution) (b := (meant opt.resolution clk1 ts, x)) rfl] at hcur hp ⊢
      obtain ⟨hp1, hp2⟩ := List.pairwise_cons.1 hp
      have hcur1 := hcur _ List.mem_cons_self
      have hcur2 := fun e he => hcur e (List.mem_cons_of_mem _ he)
      simp only [exec] at hx
      obtain ⟨⟨b, a1⟩, ha, hx⟩ := bind_inv hx
      unfold add at ha
      rw [if_neg (by simp [hen])] at ha
      obtain ⟨⟨ok, sep⟩, hsep, ha⟩ := bind_inv ha
      unfold Separator.add at hsep
      obtain ⟨⟨ok', out, sep'⟩, hpush, he⟩ := bind_inv hsep
      injection he with he
      injection he with e1 e2
      subst e1 e2
      obtain ⟨s1, pub, as', eff, hb, he⟩ := Separator.push_effect (hst ▸ hs) hgood hpush
      rw [hst, hres] at eff hb
      have hT2 : align opt.step (meant opt.resolution clk2 (align opt.step (meant opt.resolution clk1 ts))) =
          align opt.step (meant opt.resolution clk1 ts) := by
        have hm : ∀ A : Int, (opt.resolution = .none ∨ A ≠ 0) → meant opt.resolution clk2 A = A := by
          intro A hA
          unfold meant
          rw [if_neg]
          rintro ⟨p, q⟩
          exact hA.elim q (fun r => r p)
        rw [hm _ htime, Separator.align_idem (show opt.step ≠ 0 by omega)]
      rw [hT2] at eff
      have hs1 : s1.step = opt.step := eff.frame.1.trans hst
      have hcurT : s1.next - s1.step ≤ align opt.step (meant opt.resolution clk1 ts) ∧
          ∀ e ∈ ops.filterMap (callOf opt.resolution), s1.next - s1.step ≤ align opt.step e.1 := by
        rcases eff.cases with ⟨_, _, rfl, _⟩ | ⟨_, _, h3, _⟩
        · exact ⟨hcur1, hcur2⟩
        · rw [hst] at h3
          rw [hs1]
          exact ⟨h3, fun e he => h3.trans (align_mono hs (hp1 e he))⟩
      have hok := hb.2 hcurT.1
      subst hok
      simp only [if_true] at he
      simp only [Bool.true_eq_false, if_false] at ha
      obtain ⟨a2, ha2, ha⟩ := bind_inv ha
      injection ha with ha
      injection ha with e1 e2
      subst e1 e2
      obtain ⟨l, _, hl⟩ := bind_inv ha2
      injection hl with hl
      injection hx with hx
      subst hx
      have hrec : o.record true clk1 ts x = o.accepted ++ [(align opt.step (meant opt.resolution clk1 ts), x)] := by
        unfold AObs.record
        rw [hst, hres]
        simp [hen]
      have e1 : a2.sep.step = opt.step := by rw [← hl, he]; exact hs1
      have e2 : a2.sep.resolution = opt.resolution := by rw [← hl, he]; exact eff.frame.2.trans hres
      have e3 : a2.sep.next = s1.next := by rw [← hl, he]
      have := ih _ o' (as' ++ [x]) (by rw [← hl]; exact hen) e1 e2
        (by rw [← hl, he]; exact Reducer.goodA_add eff.good x) hc'
        (by intro e hin; unfold Separator.currentTime; rw [e1, e3]; have := hcurT.2 e hin; rw [hs1] at this; exact this) hp2 hf
      rw [this]
      simp only [hrec, List.map_cons, List.append_assoc, List.singleton_append]
    | pop =>
      injection hx with hx
      subst hx
      have hpop : ∀ a : Aggregator, a.pop.2.enabled = a.enabled ∧ a.pop.2.sep = a.sep := by
        intro a; unfold pop; split <;> exact ⟨rfl, rfl⟩
      obtain ⟨p1, p2⟩ := hpop o.a
      exact ih { o with a := o.a.pop.2, received := o.received ++ o.a.pop.1.toList } o' as (p1.trans hen) (by rw [p2]; exact hst)
        (by rw [p2]; exact hres) (by rw [p2]; exact hgood) hc' (by rw [p2]; exact hcur) hp hf
    | look =>
      obtain ⟨_, _, hx⟩ := bind_inv hx
      injection hx with hx
      subst hx
      exact ih _ o' as hen hst hres hgood hc' hcur hp hf
    | push => exact absurd hcalm id
    | separate => exact absurd hcalm id
    | forcePop => exact absurd hcalm id
    | enable => exact absurd hcalm id

/-- Fed with the same events in order, the coarse aggregator tells in every record what the fine one tells in its records of that
window, if the fine one is past it. -/
theorem C132_ordered_partial (env env' : Env) (opt opt' : AggregatorOpts) (k : Int) (a0 b0 : Aggregator) (ops : List AOp) (o o' : AObs)
    (hs : 0 < opt.step) (hk : 0 < k) (hks : opt'.step = k * opt.step) (hres : opt'.resolution = opt.resolution)
    (hsoil : opt.soiled = 0 ∧ opt'.soiled = 0)
    (h0 : ∃ clk rand ts : Int, Aggregator.new opt clk rand ts = .ok a0) (h0' : ∃ clk rand ts : Int, Aggregator.new opt' clk rand ts = .ok b0)
    (hops : ∀ op ∈ ops, op.clockOk ∧ Calm op ∧ op.timeOk opt')
    (hstart : ∀ e ∈ ops.filterMap (callOf opt.resolution), 0 ≤ e.1 ∧ a0.sep.currentTime ≤ e.1 ∧ b0.sep.currentTime ≤ e.1)
    (hord : (ops.filterMap (callOf opt.resolution)).Pairwise fun e e' => e.1 ≤ e'.1)
    (h : execAll env { a := a0 } ops = .ok o) (h' : execAll env' { a := b0 } ops = .ok o') :
    ∀ d ∈ o'.received ++ o'.a.agList, d.ts + opt'.step ≤ o.a.sep.currentTime →
      let fine := recordsIn (o.received ++ o.a.agList) d.ts (d.ts + opt'.step)
      d.count = logCount fine ∧ IsMinOf d.min (fine.map (·.min)) ∧ IsMaxOf d.max (fine.map (·.max)) := by
  have hs' : 0 < opt'.step := by rw [hks]; exact mul_pos hk hs
  have start : ∀ (opt : AggregatorOpts) (a0 : Aggregator), 0 < opt.step → opt.soiled = 0 →
      (∃ clk rand ts : Int, Aggregator.new opt clk rand ts = .ok a0) → opt.step ∣ a0.sep.currentTime ∧ a0.enabled = true ∧
        a0.sep.step = opt.step ∧ a0.sep.resolution = opt.resolution ∧ a0.sep.reducer = Reducer.new opt.toReducerOpts := by
    rintro opt a0 hs hsoil ⟨clk, rand, ts, h⟩
    unfold Aggregator.new Separator.new at h
    rw [Separator.getTs_eq (by omega)] at h
    simp only [bind_ok, hsoil, ne_eq, not_true_eq_false, if_false] at h
    injection h with h
    subst h
    refine ⟨?_, rfl, rfl, rfl, rfl⟩
    unfold Separator.currentTime align
    simp only [Int.add_sub_cancel]
    exact Dvd.intro_left _ rfl
  obtain ⟨g1, g2, g3, g4, g5⟩ := start opt a0 hs hsoil.1 h0
  obtain ⟨g1', g2', g3', g4', g5'⟩ := start opt' b0 hs' hsoil.2 h0'
  have hal : ∀ {S T t : Int}, 0 < S → S ∣ T → 0 ≤ t → T ≤ t → T ≤ align S t := by
    intro S T t hS hT h0 hle
    unfold align
    rw [Int.tdiv_eq_ediv_of_nonneg h0]
    have h1 := Int.mul_ediv_add_emod t S
    have h3 := Int.emod_lt_of_pos t hS
    rw [Int.mul_comm] at h1
    exact grid_le hS hT (Dvd.intro_left _ rfl) (by omega)
  have htime : ∀ op : AOp, op.timeOk opt' → op.timeOk opt := by
    have key : ∀ clk ts : Int, (opt'.resolution = .none ∨ align opt'.step (meant opt'.resolution clk ts) ≠ 0) →
        opt.resolution = .none ∨ align opt.step (meant opt.resolution clk ts) ≠ 0 := by
      intro clk ts hor
      rw [hres] at hor
      refine hor.imp id (fun hne heq => hne ?_)
      rw [hks, ← align_align hs, heq]
      unfold align
      simp
    intro op ho
    cases op <;> first | exact key _ _ ho | trivial
  have hcalm : ∀ op : AOp, Calm op → op.forced = false ∧ op.handed = false := by
    intro op ho
    cases op <;> first | exact ⟨rfl, rfl⟩ | exact absurd ho id
  have acc := C132_in_order env opt hs ops { a := a0 } o [] g2 g3 g4 (by rw [g5]; exact Reducer.goodA_new env _)
    (fun op ho => ⟨(hops op ho).2.1, htime op (hops op ho).2.2⟩)
    (fun e he => hal hs g1 (hstart e he).1 (hstart e he).2.1) hord h
  have acc' := C132_in_order env' opt' hs' ops { a := b0 } o' [] g2' g3' g4' (by rw [g5']; exact Reducer.goodA_new env' _)
    (fun op ho => (hops op ho).2)
    (by rw [hres]; exact fun e he => hal hs' g1' (hstart e he).1 (hstart e he).2.2) (by rw [hres]; exact hord) h'
  simp only [List.nil_append] at acc acc'
  obtain ⟨c1, r1, t1, n1⟩ := h0
  obtain ⟨c2, r2, t2, n2⟩ := h0'
  refine C132_rollup_partial env env' opt opt' k a0 b0 ops ops o o' hs hk hks (.new n1) (.new n2) g1 g1'
    (fun op ho => ⟨(hops op ho).1, (hcalm op (hops op ho).2.1).1, (hcalm op (hops op ho).2.1).2, htime op (hops op ho).2.2⟩)
    (fun op ho => ⟨(hops op ho).1, hcalm op (hops op ho).2.1⟩) h h' ?_ ?_
  · intro e he
    rw [acc] at he
    obtain ⟨x, hx, rfl⟩ := List.mem_map.1 he
    exact hal hs (dvd_zero _) (hstart x hx).1 (hstart x hx).1
  · rw [acc', acc, List.map_map, hres, hks]
    apply List.map_congr_left
    intro e _
    simp only [Function.comp, align_align hs]

/-- Steps 10 and 20: the two records of ten seconds add up to the one of twenty. -/
example : (execAll exactEnv { a := exFineA } [.add 0 0 1008 (.one 6 1), .add 0 0 1012 (.one 5 2), .add 0 0 1025 (.one 7 1)]).toOption.map
    (fun o => ((o.received ++ o.a.agList).map (fun d => (d.ts, d.count, d.min, d.max)), o.a.sep.currentTime)) =
      some ([(1000, 1, 6, 6), (1010, 2, 5, 5)], 1020) := by decide +kernel

example : (execAll exactEnv { a := exCoarseA } [.add 0 0 1008 (.one 6 1), .add 0 0 1012 (.one 5 2), .add 0 0 1025 (.one 7 1)]).toOption.map
    (fun o => (o.received ++ o.a.agList).map (fun d => (d.ts, d.count, d.min, d.max))) = some [(1000, 3, 5, 6)] := by decide +kernel

end Wrtstat
