import Verif.Lemmas.Separator

namespace Wrtstat
namespace Separator
open Reducer

/-- Effect of `separate`, in terms of the records published. -/
structure SepEffect (env : Env) (opt : ReducerOpts) (s s' : Separator) (as as' : List AddArg) (T : Int)
    (handler : Bool) (pub out : List AggData) : Prop where
  frame : s'.step = s.step ∧ s'.resolution = s.resolution
  lists : out = (if handler then pub else []) ∧
    s'.sepList = (if handler then s.sepList else s.sepList ++ pub)
  good : GoodA env opt s'.reducer as'
  cases : (T < s.next ∧ pub = [] ∧ s' = s ∧ as' = as) ∨
    (s.next ≤ T ∧ T < s'.next ∧ s'.next - s.step ≤ T ∧ (∃ k : Int, s'.next = s.next + k * s.step ∧ 1 ≤ k) ∧
      as' = [] ∧
      ((as = [] ∧ pub = []) ∨
       (as ≠ [] ∧ ∃ d, pub = [d] ∧ d.ts = s.next - s.step ∧ Summary env opt.limit opt.levels as d)))
  took : (pub = [] ∧ s'.reducer = s.reducer) ∨
    ∃ d, pub = [{ d with ts := s.next - s.step }] ∧ detach env s.reducer = .ok (some d, s'.reducer)

theorem separate_effect {env : Env} {opt : ReducerOpts} {s s' : Separator} {as : List AddArg}
    {clk ts : Int} {handler force b : Bool} {out : List AggData} (hs : 0 < s.step)
    (g : GoodA env opt s.reducer as) (h : s.separate env clk ts handler force = .ok (b, out, s')) :
    ∃ pub as', SepEffect env opt s s' as as' (align s.step (meant s.resolution clk ts)) handler pub out ∧
      (b = true ↔ force = true ∨ s.next ≤ align s.step (meant s.resolution clk ts)) := by
  unfold separate getTs at h
  rw [getTs_eq (by omega)] at h
  simp only [bind_ok] at h
  set T := align s.step (meant s.resolution clk ts) with hT
  by_cases hf : force = false ∧ T < s.next
  · rw [if_pos hf] at h
    cases h
    refine ⟨[], as, ⟨⟨rfl, rfl⟩, by cases handler <;> simp, g, .inl ⟨hf.2, rfl, rfl, rfl⟩, .inl ⟨rfl, rfl⟩⟩, ?_⟩
    simp [hf.1]; exact hf.2
  · rw [if_neg hf] at h
    have hb : ∀ {c : Bool}, c = true → (c = true ↔ force = true ∨ s.next ≤ T) := by
      intro c hc
      refine ⟨fun _ => ?_, fun _ => hc⟩
      by_cases h1 : force = true
      · exact .inl h1
      · right
        by_contra h2
        exact hf ⟨by simpa using h1, by omega⟩
    rcases sepLoop_spec (ts := T) (next := s.next) hs g with ⟨hlt, e⟩ | ⟨hle, next', h1, h2, h3, ⟨x, _, e⟩ | ⟨he, e⟩ |
        ⟨hne, d, r', hd, g', e⟩⟩
    · rw [e] at h
      simp only [bind_ok] at h
      cases handler <;> simp only [if_true, Bool.false_eq_true, if_false] at h <;> cases h
      · exact ⟨[], as, ⟨⟨rfl, rfl⟩, by simp, g, .inl ⟨hlt, rfl, by simp, rfl⟩, .inl ⟨rfl, rfl⟩⟩, hb rfl⟩
      · exact ⟨[], as, ⟨⟨rfl, rfl⟩, by simp, g, .inl ⟨hlt, rfl, rfl, rfl⟩, .inl ⟨rfl, rfl⟩⟩, hb rfl⟩
    · rw [e] at h; cases h
    · rw [e] at h
      subst he
      simp only [bind_ok] at h
      cases handler <;> simp only [if_true, Bool.false_eq_true, if_false] at h <;> cases h
      · exact ⟨[], [], ⟨⟨rfl, rfl⟩, by simp, g, .inr ⟨hle, h1, h2, h3, rfl, .inl ⟨rfl, rfl⟩⟩, .inl ⟨rfl, rfl⟩⟩, hb rfl⟩
      · exact ⟨[], [], ⟨⟨rfl, rfl⟩, by simp, g, .inr ⟨hle, h1, h2, h3, rfl, .inl ⟨rfl, rfl⟩⟩, .inl ⟨rfl, rfl⟩⟩, hb rfl⟩
    · rw [e] at h
      simp only [bind_ok] at h
      have hsum := summary_ts (t := s.next - s.step) (summary_of_detach g hd)
      cases handler <;> simp only [if_true, Bool.false_eq_true, if_false] at h <;> cases h
      · exact ⟨[{ d with ts := s.next - s.step }], [], ⟨⟨rfl, rfl⟩, by simp, g',
          .inr ⟨hle, h1, h2, h3, rfl, .inr ⟨hne, _, rfl, rfl, hsum⟩⟩, .inr ⟨d, rfl, hd⟩⟩, hb rfl⟩
      · exact ⟨[{ d with ts := s.next - s.step }], [], ⟨⟨rfl, rfl⟩, by simp, g',
          .inr ⟨hle, h1, h2, h3, rfl, .inr ⟨hne, _, rfl, rfl, hsum⟩⟩, .inr ⟨d, rfl, hd⟩⟩, hb rfl⟩

/-- `add`/`push` are a separation followed, if the event is not late, by an addition. -/
theorem push_effect {env : Env} {opt : ReducerOpts} {s s' : Separator} {as : List AddArg}
    {clk1 clk2 ts : Int} {a : AddArg} {handler b : Bool} {out : List AggData} (hs : 0 < s.step)
    (g : GoodA env opt s.reducer as) (h : s.push env clk1 clk2 ts a handler = .ok (b, out, s')) :
    ∃ s1 pub as', SepEffect env opt s s1 as as'
        (align s.step (meant s.resolution clk2 (align s.step (meant s.resolution clk1 ts)))) handler pub out ∧
      (b = true ↔ s1.next - s1.step ≤ align s.step (meant s.resolution clk1 ts)) ∧
      s' = (if b then { s1 with reducer := s1.reducer.add env a } else s1) := by
  unfold push getTs at h
  rw [getTs_eq (by omega)] at h
  simp only [bind_ok] at h
  cases hx : s.separate env clk2 (align s.step (meant s.resolution clk1 ts)) handler false with
  | error e => rw [hx] at h; cases h
  | ok p =>
    obtain ⟨b1, out1, s1⟩ := p
    rw [hx] at h
    simp only [bind_ok] at h
    obtain ⟨pub, as', eff, _⟩ := separate_effect hs g hx
    split_ifs at h with hlt
    · cases h
      exact ⟨_, pub, as', eff, by simp; omega, by simp⟩
    · cases h
      exact ⟨s1, pub, as', eff, by simp; omega, by simp⟩

/-! ### Events in windows -/

theorem eventsIn_append (acc : List (Int × AddArg)) (e : Int × AddArg) (lo hi : Int) :
    eventsIn (acc ++ [e]) lo hi =
      eventsIn acc lo hi ++ (if lo ≤ e.1 ∧ e.1 < hi then [e.2] else []) := by
  unfold eventsIn
  rw [List.filter_append, List.map_append]
  congr 1
  by_cases h : lo ≤ e.1 ∧ e.1 < hi
  · rw [if_pos h, List.filter_cons_of_pos (by simpa using h)]; simp
  · rw [if_neg h, List.filter_cons_of_neg (by simpa using h)]; simp

theorem eventsIn_empty {acc : List (Int × AddArg)} {lo hi : Int} (h : ∀ e ∈ acc, e.1 < lo) :
    eventsIn acc lo hi = [] := by
  unfold eventsIn
  rw [List.map_eq_nil_iff, List.filter_eq_nil_iff]
  intro e he
  have := h e he
  simp; omega

/-- Invariant of a run: `log` is the list of all records published so far. -/
structure SGood (env : Env) (opt : SeparatorOpts) (org : Int) (o : Obs) (log : List AggData) : Prop where
  origin : ∃ k : Int, 0 ≤ k ∧ o.s.next = org + opt.step + k * opt.step
  aligned : ∀ d ∈ log, ∃ k : Int, 0 ≤ k ∧ d.ts = org + k * opt.step
  after : ∀ e ∈ o.accepted, org ≤ e.1
  step : o.s.step = opt.step ∧ o.s.resolution = opt.resolution
  red : GoodA env opt.toReducerOpts o.s.reducer
    (eventsIn o.accepted (o.s.next - opt.step) o.s.next)
  before : ∀ e ∈ o.accepted, e.1 < o.s.next
  recs : ∀ d ∈ log, Summary env opt.limit opt.levels (eventsIn o.accepted d.ts (d.ts + opt.step)) d ∧
    ∃ k : Int, 1 ≤ k ∧ d.ts = o.s.next - opt.step - k * opt.step
  cover : ∀ e ∈ o.accepted, e.1 < o.s.next - opt.step → ∃ d ∈ log, d.ts ≤ e.1 ∧ e.1 < d.ts + opt.step
  sorted : log.Pairwise fun a b => a.ts < b.ts
  counts : logCount log + sumCount (eventsIn o.accepted (o.s.next - opt.step) o.s.next) =
    sumCount (o.accepted.map Prod.snd)
  perm : log.Perm (o.received ++ o.s.sepList)

theorem sumCount_append (a b : List AddArg) : sumCount (a ++ b) = sumCount a + sumCount b := by
  simp [sumCount]

theorem sgood_separate {env : Env} {opt : SeparatorOpts} {org : Int} {o : Obs} {log : List AggData} {s' : Separator}
    {as' : List AddArg} {T : Int} {handler : Bool} {pub out : List AggData} (hs : 0 < opt.step)
    (g : SGood env opt org o log)
    (eff : SepEffect env opt.toReducerOpts o.s s'
      (eventsIn o.accepted (o.s.next - opt.step) o.s.next) as' T handler pub out) :
    SGood env opt org { o with s := s', received := o.received ++ out } (log ++ pub) ∧
      o.s.next ≤ s'.next ∧ (T < s'.next) ∧ (s'.next - opt.step ≤ max T (o.s.next - opt.step)) := by
  obtain ⟨⟨ko, hk0, hk1⟩, hal, haft, ⟨hst, hres⟩, hred, hbef, hrecs, hcov, hsort, hcnt, hperm⟩ := g
  obtain ⟨⟨f1, f2⟩, ⟨l1, l2⟩, hg, hc⟩ := eff
  have hperm' : (log ++ pub).Perm ((o.received ++ out) ++ s'.sepList) := by
    rw [l1, l2]
    cases handler
    · simpa using hperm.append_right pub
    · simp only [if_true]
      refine (hperm.append_right pub).trans ?_
      simp only [List.append_assoc]
      exact List.perm_append_comm.append_left _
  rcases hc with ⟨h1, h2, h3, h4⟩ | ⟨h1, h2, h3, ⟨k, h4, h5⟩, h6, h7⟩
  · subst h2 h3 h4
    refine ⟨⟨⟨ko, hk0, hk1⟩, by simpa using hal, haft, ⟨hst, hres⟩, hred, hbef, by simpa using hrecs, by simpa using hcov, by simpa using hsort,
      by simpa using hcnt, hperm'⟩, le_refl _, h1, le_max_right _ _⟩
  · rw [hst] at h3 h4
    subst h6
    have hks : opt.step ≤ k * opt.step := by nlinarith
    have hemp : eventsIn o.accepted (s'.next - opt.step) s'.next = [] := by
      apply eventsIn_empty
      intro e he
      have := hbef e he
      rw [h4]; omega
    have hrec' : ∀ d ∈ log, Summary env opt.limit opt.levels (eventsIn o.accepted d.ts (d.ts + opt.step)) d ∧
        ∃ k : Int, 1 ≤ k ∧ d.ts = s'.next - opt.step - k * opt.step := by
      intro d hd
      obtain ⟨hsum, j, hj, hts⟩ := hrecs d hd
      exact ⟨hsum, j + k, by omega, by rw [hts, h4]; ring⟩
    have hal' : ∀ d ∈ log ++ pub, ∃ k : Int, 0 ≤ k ∧ d.ts = org + k * opt.step := by
      intro d hd
      rcases List.mem_append.1 hd with hd | hd
      · exact hal d hd
      · rcases h7 with ⟨_, h7⟩ | ⟨_, d', h7, h8, h9⟩
        · rw [h7] at hd; simp at hd
        · rw [h7] at hd
          simp only [List.mem_singleton] at hd
          subst hd
          exact ⟨ko, hk0, by rw [h8, hst, hk1]; ring⟩
    refine ⟨⟨⟨ko + k, by omega, by show s'.next = _; rw [h4, hk1]; ring⟩, hal', haft,
      ⟨f1.trans hst, f2.trans hres⟩, ?_, ?_, ?_, ?_, ?_, ?_, hperm'⟩, by rw [h4]; omega, h2,
      le_max_of_le_left h3⟩
    · show GoodA env _ s'.reducer (eventsIn o.accepted (s'.next - opt.step) s'.next)
      rw [hemp]; exact hg
    · intro e he
      have := hbef e he
      show e.1 < s'.next
      rw [h4]; omega
    · intro d hd
      rcases List.mem_append.1 hd with hd | hd
      · exact hrec' d hd
      · rcases h7 with ⟨_, h7⟩ | ⟨_, d', h7, h8, h9⟩
        · rw [h7] at hd; simp at hd
        · rw [h7] at hd
          simp only [List.mem_singleton] at hd
          subst hd
          refine ⟨?_, k, h5, ?_⟩
          · show Summary _ _ _ (eventsIn o.accepted d.ts (d.ts + opt.step)) d
            rw [h8, hst]
            have : o.s.next - opt.step + opt.step = o.s.next := by ring
            rw [this]; exact h9
          · show d.ts = s'.next - opt.step - k * opt.step
            rw [h8, h4, hst]; ring
    · intro e he hlt
      have hlt : e.1 < s'.next - opt.step := hlt
      by_cases hold : e.1 < o.s.next - opt.step
      · obtain ⟨d, hd, hd2⟩ := hcov e he hold
        exact ⟨d, List.mem_append_left _ hd, hd2⟩
      · have hcur : e.1 < o.s.next := hbef e he
        rcases h7 with ⟨h7, _⟩ | ⟨_, d', h7, h8, h9⟩
        · exfalso
          have : e.2 ∈ eventsIn o.accepted (o.s.next - opt.step) o.s.next := by
            unfold eventsIn
            rw [List.mem_map]
            exact ⟨e, by rw [List.mem_filter]; exact ⟨he, by simp; omega⟩, rfl⟩
          rw [h7] at this; simp at this
        · refine ⟨d', by rw [h7]; simp, ?_⟩
          rw [h8, hst]; omega
    · rw [List.pairwise_append]
      refine ⟨hsort, ?_, ?_⟩
      · rcases h7 with ⟨_, h7⟩ | ⟨_, d', h7, h8, h9⟩ <;> rw [h7] <;> simp
      · intro a ha b hb
        obtain ⟨_, j, hj, hts⟩ := hrecs a ha
        rcases h7 with ⟨_, h7⟩ | ⟨_, d', h7, h8, h9⟩
        · rw [h7] at hb; simp at hb
        · rw [h7] at hb
          simp only [List.mem_singleton] at hb
          subst hb
          rw [hts, h8, hst]
          nlinarith
    · show logCount (log ++ pub) + sumCount (eventsIn o.accepted (s'.next - opt.step) s'.next) = _
      rw [hemp]
      rcases h7 with ⟨h7, h8⟩ | ⟨_, d', h7, h8, h9⟩
      · rw [h7] at hcnt
        rw [h8]
        simpa using hcnt
      · rw [h7]
        have := h9.count
        simp only [logCount, List.map_append, List.map_cons, List.map_nil, List.sum_append, List.sum_cons,
          List.sum_nil, sumCount] at *
        omega

theorem sgood_add {env : Env} {opt : SeparatorOpts} {org : Int} {o : Obs} {log : List AggData} (hs : 0 < opt.step)
    (g : SGood env opt org o log) (T : Int) (a : AddArg) (h1 : o.s.next - opt.step ≤ T) (h2 : T < o.s.next) :
    SGood env opt org
      ⟨{ o.s with reducer := o.s.reducer.add env a }, o.received, o.accepted ++ [(T, a)]⟩ log := by
  obtain ⟨⟨ko, hk0, hk1⟩, hal, haft, ⟨hst, hres⟩, hred, hbef, hrecs, hcov, hsort, hcnt, hperm⟩ := g
  have hcur : eventsIn (o.accepted ++ [(T, a)]) (o.s.next - opt.step) o.s.next =
      eventsIn o.accepted (o.s.next - opt.step) o.s.next ++ [a] := by
    rw [eventsIn_append, if_pos ⟨h1, h2⟩]
  refine ⟨⟨ko, hk0, hk1⟩, hal, ?_, ⟨hst, hres⟩, ?_, ?_, ?_, ?_, hsort, ?_, hperm⟩
  · intro e he
    rcases List.mem_append.1 he with he | he
    · exact haft e he
    · simp only [List.mem_singleton] at he
      subst he
      have : 0 ≤ ko * opt.step := mul_nonneg hk0 hs.le
      simp only
      omega
  · show GoodA env _ (o.s.reducer.add env a) (eventsIn (o.accepted ++ [(T, a)]) (o.s.next - opt.step) o.s.next)
    rw [hcur]
    exact goodA_add hred a
  · intro e he
    rcases List.mem_append.1 he with he | he
    · exact hbef e he
    · simp only [List.mem_singleton] at he
      subst he; exact h2
  · intro d hd
    obtain ⟨hsum, j, hj, hts⟩ := hrecs d hd
    refine ⟨?_, j, hj, hts⟩
    show Summary _ _ _ (eventsIn (o.accepted ++ [(T, a)]) d.ts (d.ts + opt.step)) d
    have hjs : opt.step ≤ j * opt.step := by nlinarith
    rw [eventsIn_append, if_neg (by simp only; omega), List.append_nil]
    exact hsum
  · intro e he hlt
    have hlt : e.1 < o.s.next - opt.step := hlt
    rcases List.mem_append.1 he with he | he
    · exact hcov e he hlt
    · simp only [List.mem_singleton] at he
      subst he
      simp only at hlt
      omega
  · show logCount log + sumCount (eventsIn (o.accepted ++ [(T, a)]) (o.s.next - opt.step) o.s.next) = _
    rw [hcur, sumCount_append, List.map_append, sumCount_append]
    simp only [List.map_cons, List.map_nil]
    omega

/-- One operation keeps the invariant. -/
theorem sgood_exec {env : Env} {opt : SeparatorOpts} {org : Int} {o o' : Obs} {log : List AggData} (hs : 0 < opt.step)
    (g : SGood env opt org o log) (op : SOp) (hclk : op.clockOk) (h : exec env o op = .ok o') :
    ∃ pub, SGood env opt org o' (log ++ pub) ∧
      (op.handed = false → o.received ++ o.s.sepList = log → o'.received ++ o'.s.sepList = log ++ pub) ∧
      (op.handed = true → o.s.sepList = [] → o.received = log → o'.s.sepList = [] ∧ o'.received = log ++ pub) := by
  have hst := g.step.1
  cases op with
  | push clk1 clk2 ts a handler =>
    simp only [exec] at h
    cases hx : o.s.push env clk1 clk2 ts a handler with
    | error e => rw [hx] at h; cases h
    | ok p =>
      obtain ⟨b, out, s'⟩ := p
      rw [hx] at h
      simp only [bind_ok] at h
      cases h
      obtain ⟨s1, pub, as', eff, hb, hs'⟩ := push_effect (by rw [hst]; exact hs) (hst ▸ g.red) hx
      obtain ⟨g1, hn1, hn2, hn3⟩ := sgood_separate hs g (hst ▸ eff)
      have hlists : (handler = false → o.received ++ o.s.sepList = log →
            (o.received ++ out) ++ s1.sepList = log ++ pub) ∧
          (handler = true → o.s.sepList = [] → o.received = log → s1.sepList = [] ∧
            o.received ++ out = log ++ pub) := by
        obtain ⟨l1, l2⟩ := eff.lists
        constructor
        · intro hh he; rw [l1, l2, hh]; simp [← he]
        · intro hh he he2; rw [l1, l2, hh]; simp [he, he2]
      refine ⟨pub, ?_⟩
      cases b with
      | false =>
        simp only [Bool.false_eq_true, if_false] at hs' ⊢
        subst hs'
        exact ⟨g1, hlists.1, hlists.2⟩
      | true =>
        simp only [if_true] at hs' ⊢
        subst hs'
        simp only [true_iff] at hb
        have hs1 : s1.step = opt.step := eff.frame.1.trans hst
        rw [hs1, hst] at hb
        refine ⟨?_, hlists.1, hlists.2⟩
        rw [hst]
        refine sgood_add hs g1 _ a hb ?_
        refine lt_of_le_of_lt ?_ hn2
        -- the separation time is not before the event
        generalize hA : align opt.step (meant o.s.resolution clk1 ts) = A
        have hA2 : align opt.step A = A := by rw [← hA]; exact align_idem (by omega) _
        unfold meant
        split_ifs with hz
        · rw [hz.1]
          unfold align
          exact mul_nonneg (Int.tdiv_nonneg hclk.2 hs.le) hs.le
        · rw [hA2]
  | separate clk ts handler force =>
    simp only [exec] at h
    cases hx : o.s.separate env clk ts handler force with
    | error e => rw [hx] at h; cases h
    | ok p =>
      obtain ⟨b, out, s'⟩ := p
      rw [hx] at h
      simp only [bind_ok] at h
      cases h
      obtain ⟨pub, as', eff, hb⟩ := separate_effect (by rw [hst]; exact hs) (hst ▸ g.red) hx
      obtain ⟨g1, hn1, hn2, hn3⟩ := sgood_separate hs g (hst ▸ eff)
      refine ⟨pub, g1, ?_, ?_⟩
      · obtain ⟨l1, l2⟩ := eff.lists
        intro hh he
        have hh : handler = false := hh
        show o.received ++ out ++ s'.sepList = _
        rw [l1, l2, hh]; simp [← he]
      · obtain ⟨l1, l2⟩ := eff.lists
        intro hh he he2
        have hh : handler = true := hh
        show s'.sepList = [] ∧ o.received ++ out = log ++ pub
        rw [l1, l2, hh]; simp [he, he2]
  | pop =>
    simp only [exec, pop] at h
    cases hl : o.s.sepList with
    | nil =>
      rw [hl] at h
      cases h
      refine ⟨[], by simpa using g, ?_, ?_⟩
      · intro _ he; simpa [hl] using he
      · intro hh; simp [SOp.handed] at hh
    | cons d l =>
      rw [hl] at h
      cases h
      obtain ⟨ho1, ho2, ho3, hst', hred, hbef, hrecs, hcov, hsort, hcnt, hperm⟩ := g
      refine ⟨[], ?_, ?_, ?_⟩
      · rw [List.append_nil]
        refine ⟨ho1, ho2, ho3, hst', hred, hbef, hrecs, hcov, hsort, hcnt, ?_⟩
        simpa [hl] using hperm
      · intro _ he; simpa [hl] using he
      · intro hh; simp [SOp.handed] at hh
  | look =>
    simp only [exec] at h
    cases hx : o.s.getCurrent env with
    | error e => rw [hx] at h; cases h
    | ok p =>
      rw [hx] at h
      cases h
      refine ⟨[], by simpa using g, ?_, ?_⟩
      · intro _ he; simpa using he
      · intro hh; simp [SOp.handed] at hh

theorem sgood_new {env : Env} {opt : SeparatorOpts} {clk rand ts : Int} {s : Separator}
    (h : Separator.new opt clk rand ts = .ok s) : SGood env opt (s.next - opt.step) { s := s } [] := by
  unfold Separator.new at h
  by_cases hst : opt.step = 0
  · simp [getTsWith, hst] at h; cases h
  · rw [getTs_eq hst] at h
    simp only [bind_ok] at h
    cases h
    refine ⟨⟨0, le_refl _, by simp⟩, by simp, by simp, ⟨rfl, rfl⟩, ?_, by simp, by simp, by simp, by simp, by simp [logCount, sumCount, eventsIn], by simp⟩
    exact goodA_new env opt.toReducerOpts

theorem sgood_execAll {env : Env} {opt : SeparatorOpts} {org : Int} (hs : 0 < opt.step) (ops : List SOp) :
    ∀ {o o' : Obs} {log : List AggData}, SGood env opt org o log → (∀ op ∈ ops, op.clockOk) →
      execAll env o ops = .ok o' → ∃ pub, SGood env opt org o' (log ++ pub) ∧
      ((∀ op ∈ ops, op.handed = false) → o.received ++ o.s.sepList = log →
        o'.received ++ o'.s.sepList = log ++ pub) ∧
      ((∀ op ∈ ops, op.handed = true) → o.s.sepList = [] → o.received = log →
        o'.s.sepList = [] ∧ o'.received = log ++ pub) ∧ (o.s.next ≤ o'.s.next) := by
  induction ops with
  | nil =>
    intro o o' log g _ h
    cases h
    exact ⟨[], by simpa using g, by simp, fun _ a b => ⟨a, by simpa using b⟩, le_refl _⟩
  | cons op ops ih =>
    intro o o' log g hc h
    unfold execAll at h
    rw [List.foldlM_cons] at h
    cases hx : exec env o op with
    | error e => rw [hx] at h; cases h
    | ok o1 =>
      rw [hx] at h
      obtain ⟨pub, g1, hf1, hf2⟩ := sgood_exec hs g op (hc op (by simp)) hx
      obtain ⟨pub2, g2, hf3, hf4, hf5⟩ := ih g1 (fun op' h' => hc op' (by simp [h'])) h
      refine ⟨pub ++ pub2, by rw [← List.append_assoc]; exact g2, ?_, ?_, ?_⟩
      · intro hh he
        rw [← List.append_assoc]
        exact hf3 (fun op' h' => hh op' (by simp [h'])) (hf1 (hh op (by simp)) he)
      · intro hh he he2
        obtain ⟨a, b⟩ := hf2 (hh op (by simp)) he he2
        rw [← List.append_assoc]
        exact hf4 (fun op' h' => hh op' (by simp [h'])) a b
      · refine le_trans ?_ hf5
        have hst := g.step.1
        cases op with
        | push clk1 clk2 ts a handler =>
          simp only [exec] at hx
          cases hy : o.s.push env clk1 clk2 ts a handler with
          | error e => rw [hy] at hx; cases hx
          | ok p =>
            obtain ⟨b, out, s'⟩ := p
            rw [hy] at hx
            simp only [bind_ok] at hx
            cases hx
            obtain ⟨s1, pub, as', eff, hb, hs'⟩ := push_effect (by rw [hst]; exact hs) (hst ▸ g.red) hy
            obtain ⟨_, hn1, _⟩ := sgood_separate hs g (hst ▸ eff)
            show o.s.next ≤ s'.next
            subst hs'
            cases b <;> exact hn1
        | separate clk ts handler force =>
          simp only [exec] at hx
          cases hy : o.s.separate env clk ts handler force with
          | error e => rw [hy] at hx; cases hx
          | ok p =>
            obtain ⟨b, out, s'⟩ := p
            rw [hy] at hx
            simp only [bind_ok] at hx
            cases hx
            obtain ⟨pub, as', eff, hb⟩ := separate_effect (by rw [hst]; exact hs) (hst ▸ g.red) hy
            exact (sgood_separate hs g (hst ▸ eff)).2.1
        | pop =>
          simp only [exec, pop] at hx
          cases hl : o.s.sepList with
          | nil => rw [hl] at hx; cases hx; exact le_refl _
          | cons d l => rw [hl] at hx; cases hx; exact le_refl _
        | look =>
          simp only [exec] at hx
          cases hy : o.s.getCurrent env with
          | error e => rw [hy] at hx; cases hx
          | ok p => rw [hy] at hx; cases hx; exact le_refl _

end Separator
end Wrtstat
