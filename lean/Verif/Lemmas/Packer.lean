/-
Lemmas on the packer.
-/
import Verif.Lemmas.PackerName
import Verif.Spec.PackerSpec
import Mathlib.Data.List.TakeWhile

namespace Wrtstat

set_option autoImplicit false

namespace Packer

/-! ### The ordered list -/

/-- The recorded sizes do not decrease. -/
def Sorted (top : List TopItem) : Prop := top.Pairwise fun a b => a.size ≤ b.size

/-- The packer's list is ordered and every record is right. -/
structure PInv (J : Json) (pk : Packer) : Prop where
  sorted : Sorted pk.top
  meas : ∀ t ∈ pk.top, measure J pk.opt t.req = .ok (t.size, t.legend)

theorem pinv_new (J : Json) (opt : PackerOpts) (h : Bool) : PInv J (Packer.new opt h) :=
  ⟨List.Pairwise.nil, fun t ht => by simp [Packer.new] at ht⟩

theorem lowerBound_spec {top : List TopItem} (hs : Sorted top) (n : Nat) :
    ∃ lo hi, lowerBound top n = .ok (lo, hi) ∧ lo ++ hi = top ∧ (∀ t ∈ lo, t.size < n) ∧ (∀ t ∈ hi, n ≤ t.size) := by
  have h1 : ∀ t ∈ top.takeWhile (fun t => decide (t.size < n)), t.size < n := fun t ht => by
    simpa using List.mem_takeWhile_imp ht
  have h2 : ∀ t ∈ top.dropWhile (fun t => decide (t.size < n)), n ≤ t.size := by
    induction top with
    | nil => simp
    | cons a l ih =>
      have hl := List.pairwise_cons.1 hs
      by_cases ha : a.size < n
      · rw [List.dropWhile_cons_of_pos (by simpa using ha)]
        exact ih hl.2 (fun t ht => by simpa using List.mem_takeWhile_imp ht)
      · rw [List.dropWhile_cons_of_neg (by simpa using ha)]
        intro t ht
        rcases List.mem_cons.1 ht with rfl | ht
        · omega
        · have := hl.1 t ht; omega
  refine ⟨_, _, ?_, List.takeWhile_append_dropWhile, h1, h2⟩
  unfold lowerBound
  simp only
  rw [if_pos]
  rw [List.all_eq_true]
  intro t ht
  simpa using h2 t ht

theorem sorted_mid {lo hi : List TopItem} {t : TopItem} (hs : Sorted (lo ++ hi)) (h1 : ∀ x ∈ lo, x.size ≤ t.size)
    (h2 : ∀ x ∈ hi, t.size ≤ x.size) : Sorted (lo ++ t :: hi) := by
  unfold Sorted at *
  rw [List.pairwise_append] at hs ⊢
  refine ⟨hs.1, List.pairwise_cons.2 ⟨h2, hs.2.1⟩, fun a ha b hb => ?_⟩
  rcases List.mem_cons.1 hb with rfl | hb
  · exact h1 a ha
  · exact hs.2.2 a ha b hb

theorem sorted_drop {lo hi : List TopItem} {t : TopItem} (hs : Sorted (lo ++ t :: hi)) : Sorted (lo ++ hi) := by
  unfold Sorted at *
  rw [List.pairwise_append] at hs ⊢
  exact ⟨hs.1, (List.pairwise_cons.1 hs.2.1).2, fun a ha b hb => hs.2.2 a ha b (List.mem_cons_of_mem _ hb)⟩

/-! ### push -/

/-- The options allow compaction to end. -/
def Ends (opt : PackerOpts) : Prop := opt.nameCompact = true → opt.nameSep ≠ []

theorem measure_total (J : Json) {opt : PackerOpts} (h : Ends opt) (req : PushRequest) : ∃ n lg, measure J opt req = .ok (n, lg) := by
  unfold measure
  by_cases hc : opt.nameCompact
  · obtain ⟨ws, -, h1⟩ := compactName_total (h hc) req.name []
    simp only
    rw [if_pos hc, h1, bind_ok']
    exact ⟨_, _, rfl⟩
  · simp only; rw [if_neg hc]; exact ⟨_, _, rfl⟩

/-- A request that can be measured is added, and nothing else changes. -/
theorem push_spec (J : Json) {pk : Packer} (hi : PInv J pk) {req : PushRequest} {n : Nat} {lg : List PName}
    (hm : measure J pk.opt req = .ok (n, lg)) :
    ∃ pk', push J pk req = .ok pk' ∧ PInv J pk' ∧ pk'.opt = pk.opt ∧ pk'.handler = pk.handler ∧
      pk'.contents.Perm (req :: pk.contents) := by
  obtain ⟨lo, hi', h1, h2, h3, h4⟩ := lowerBound_spec hi.sorted n
  refine ⟨{ pk with top := lo ++ { size := n, req := req, legend := lg } :: hi' }, ?_, ⟨?_, ?_⟩, rfl, rfl, ?_⟩
  · unfold push
    simp only [hm, bind_ok', h1]
  · exact sorted_mid (by rw [h2]; exact hi.sorted) (fun x hx => Nat.le_of_lt (h3 x hx)) h4
  · intro t ht
    rcases List.mem_append.1 ht with h | h
    · exact hi.meas t (by rw [← h2]; exact List.mem_append_left _ h)
    · rcases List.mem_cons.1 h with rfl | h
      · exact hm
      · exact hi.meas t (by rw [← h2]; exact List.mem_append_right _ h)
  · unfold contents
    rw [← h2]
    simp only [List.map_append, List.map_cons]
    exact List.perm_middle

theorem push_inv {J : Json} {pk pk' : Packer} (hi : PInv J pk) {req : PushRequest} (h : push J pk req = .ok pk') :
    PInv J pk' ∧ pk'.opt = pk.opt ∧ pk'.handler = pk.handler ∧ pk'.contents.Perm (req :: pk.contents) := by
  have h0 := h
  unfold push at h0
  obtain ⟨⟨n, lg⟩, hm, -⟩ := bind_inv h0
  obtain ⟨pk2, g1, g2⟩ := push_spec J hi hm
  rw [h] at g1
  simp at g1
  subst g1
  exact g2

theorem multiPush_inv {J : Json} {ps : List PushRequest} {pk pk' : Packer} (hi : PInv J pk) (h : multiPush J pk ps = .ok pk') :
    PInv J pk' ∧ pk'.opt = pk.opt ∧ pk'.handler = pk.handler ∧ pk'.contents.Perm (ps ++ pk.contents) := by
  induction ps generalizing pk with
  | nil => simp [multiPush] at h; subst h; exact ⟨hi, rfl, rfl, List.Perm.refl _⟩
  | cons p ps ih =>
    unfold multiPush at h
    obtain ⟨pk1, h1, h2⟩ := bind_inv h
    obtain ⟨a1, a2, a3, a4⟩ := push_inv hi h1
    obtain ⟨b1, b2, b3, b4⟩ := ih a1 h2
    exact ⟨b1, b2.trans a2, b3.trans a3, b4.trans (((List.Perm.append_left ps a4).trans List.perm_middle))⟩

theorem multiPush_total {J : Json} {ps : List PushRequest} {pk : Packer} (hi : PInv J pk) (he : Ends pk.opt) :
    ∃ pk', multiPush J pk ps = .ok pk' := by
  induction ps generalizing pk with
  | nil => exact ⟨_, rfl⟩
  | cons p ps ih =>
    obtain ⟨n, lg, hm⟩ := measure_total J he p
    obtain ⟨pk1, h1, a1, a2, -⟩ := push_spec J hi hm
    obtain ⟨pk2, h2⟩ := ih a1 (by rw [a2]; exact he)
    exact ⟨pk2, by unfold multiPush; rw [h1, bind_ok', h2]⟩

/-! ### pop_by_json_size -/

theorem takePrev_spec {lo hi : List TopItem} (h : lo ≠ []) :
    ∃ a t, lo = a ++ [t] ∧ takePrev lo hi = .ok (some t, a ++ hi) := by
  refine ⟨lo.dropLast, lo.getLast h, (List.dropLast_append_getLast h).symm, ?_⟩
  unfold takePrev
  rw [List.getLast?_eq_some_getLast h]

/-- Best fit. -/
theorem popTop_spec {top : List TopItem} (hs : Sorted top) (n : Nat) :
    (popTop top n = .ok (none, top) ∧ ∀ t ∈ top, n < t.size) ∨
    (∃ a t b, popTop top n = .ok (some t, a ++ b) ∧ top = a ++ t :: b ∧ t.size ≤ n ∧
      ∀ x ∈ top, x.size ≤ n → x.size ≤ t.size) := by
  unfold popTop
  by_cases h0 : top = []
  · subst h0
    exact Or.inl ⟨rfl, fun t ht => by simp at ht⟩
  rw [if_neg h0]
  obtain ⟨lo, hi, h1, h2, h3, h4⟩ := lowerBound_spec hs n
  simp only [h1, bind_ok']
  have hlast : ∀ (a : List TopItem) (t : TopItem), lo = a ++ [t] → ∀ x ∈ lo, x.size ≤ t.size := by
    rintro a t rfl x hx
    rcases List.mem_append.1 hx with h | h
    · rw [← h2] at hs
      have := (List.pairwise_append.1 (List.pairwise_append.1 hs).1).2.2 x h t (by simp)
      exact this
    · simp at h; subst h; exact Nat.le_refl _
  cases hi with
  | nil =>
    right
    have hlo : lo ≠ [] := by rintro rfl; exact h0 (by simpa using h2.symm)
    obtain ⟨a, t, e, k⟩ := takePrev_spec (hi := []) hlo
    refine ⟨a, t, [], k, by rw [← h2, e]; simp, Nat.le_of_lt (h3 t (by rw [e]; simp)), fun x hx _ => ?_⟩
    rw [← h2, List.append_nil] at hx
    exact hlast a t e x hx
  | cons u hi =>
    simp only
    by_cases h5 : u.size ≠ n
    · rw [if_pos h5]
      have hu := h4 u (by simp)
      have hhi : ∀ x ∈ u :: hi, n < x.size := by
        intro x hx
        rw [← h2] at hs
        have := List.pairwise_cons.1 (List.pairwise_append.1 hs).2.1
        rcases List.mem_cons.1 hx with rfl | hx
        · omega
        · have := this.1 x hx; omega
      by_cases h6 : lo = []
      · rw [if_pos h6]
        left
        refine ⟨rfl, fun t ht => ?_⟩
        rw [← h2, h6] at ht
        exact hhi t ht
      · rw [if_neg h6]
        right
        obtain ⟨a, t, e, k⟩ := takePrev_spec (hi := u :: hi) h6
        refine ⟨a, t, u :: hi, k, by rw [← h2, e]; simp, Nat.le_of_lt (h3 t (by rw [e]; simp)), fun x hx hxn => ?_⟩
        rw [← h2] at hx
        rcases List.mem_append.1 hx with h | h
        · exact hlast a t e x h
        · have := hhi x h; omega
    · rw [if_neg h5]
      right
      exact ⟨lo, u, hi, rfl, h2.symm, by omega, fun x hx hxn => by omega⟩

theorem popSize_spec {J : Json} {pk : Packer} (hi : PInv J pk) (n : Nat) :
    (popByJsonSize pk n = .ok (none, pk) ∧ ∀ t ∈ pk.top, n < t.size) ∨
    (∃ t pk', popByJsonSize pk n = .ok (some t, pk') ∧ PInv J pk' ∧ pk'.opt = pk.opt ∧ pk'.handler = pk.handler ∧
      (t :: pk'.top).Perm pk.top ∧ t.size ≤ n ∧ ∀ x ∈ pk.top, x.size ≤ n → x.size ≤ t.size) := by
  rcases popTop_spec hi.sorted n with ⟨h1, h2⟩ | ⟨a, t, b, h1, h2, h3, h4⟩
  · left
    refine ⟨?_, h2⟩
    unfold popByJsonSize
    simp only [h1, bind_ok']
  · right
    refine ⟨t, { pk with top := a ++ b }, ?_, ⟨sorted_drop (by rw [← h2]; exact hi.sorted), ?_⟩, rfl, rfl, ?_, h3, h4⟩
    · unfold popByJsonSize
      simp only [h1, bind_ok']
    · intro x hx
      refine hi.meas x ?_
      rw [h2]
      rcases List.mem_append.1 hx with h | h
      · exact List.mem_append_left _ h
      · exact List.mem_append_right _ (List.mem_cons_of_mem _ h)
    · rw [h2]; exact List.perm_middle.symm

/-! ### multi_pop: the requests -/

/-- The bookkeeping of the number of requests. -/
def PushRoom (opt : PackerOpts) (n pushes : Nat) : Prop := opt.pushLimit ≠ 0 → n + pushes = opt.pushLimit

theorem limits_spec {opt : PackerOpts} {n p s : Nat} (h : PushRoom opt n p) (hp : opt.pushLimit ≠ 0 → 0 < p)
    (hs : opt.dataLimit ≠ 0 → 0 < s) :
    (limits opt p s).2.2 = s ∧ PushRoom opt (n + 1) (limits opt p s).2.1 ∧
    ((limits opt p s).1 = false → opt.pushLimit ≠ 0 → 0 < (limits opt p s).2.1) ∧
    ((limits opt p s).1 = true → opt.pushLimit ≠ 0 ∧ (limits opt p s).2.1 = 0) := by
  unfold limits
  by_cases h1 : opt.pushLimit = 0
  · simp only [h1, ne_eq, not_true_eq_false, if_false, false_and]
    by_cases h2 : opt.dataLimit = 0
    · simp [h2, PushRoom, h1]
    · have := hs h2
      have e : s ≠ 0 := by omega
      simp [h2, PushRoom, h1, e]
  · simp only [h1, ne_eq, not_false_eq_true, if_true, true_and]
    have g1 := hp h1
    have g2 := h h1
    by_cases h3 : p - 1 = 0
    · rw [if_pos h3]
      exact ⟨rfl, fun _ => by simp only; omega, by simp, fun _ => h3⟩
    · rw [if_neg h3]
      by_cases h2 : opt.dataLimit = 0
      · rw [if_neg (by simpa using h2)]
        exact ⟨rfl, fun _ => by simp only; omega, fun _ _ => by simp only; omega, by simp⟩
      · have := hs h2
        have e : s ≠ 0 := by omega
        rw [if_pos h2, if_neg (by omega)]
        refine ⟨rfl, fun _ => by simp only; omega, fun _ _ => by simp only; omega, ?_⟩
        simp [e]

/-- The size recorded for a request. -/
def msize (J : Json) (opt : PackerOpts) (p : PushRequest) : Nat :=
  match measure J opt p with
  | .ok r => r.1
  | .error _ => 0

/-- The words recorded for a request. -/
def mlegend (J : Json) (opt : PackerOpts) (p : PushRequest) : List PName :=
  match measure J opt p with
  | .ok r => r.2
  | .error _ => []

/-- The price of a set of words. -/
def cost (l : List PName) : Nat := (l.map fun w => w.length + 4).sum

theorem charge_spec (ws : List PName) {set : List PName} (hn : set.Nodup) (cur : Nat) :
    (charge ws set cur).1.Nodup ∧ (∀ x, x ∈ (charge ws set cur).1 ↔ x ∈ set ∨ x ∈ ws) ∧
    (charge ws set cur).2 + cost set = cur + cost (charge ws set cur).1 := by
  induction ws generalizing set cur with
  | nil => simp [charge, hn]
  | cons w ws ih =>
    unfold charge
    by_cases h : w ∈ set
    · rw [if_pos h]
      obtain ⟨a, b, c⟩ := ih hn cur
      refine ⟨a, fun x => ?_, c⟩
      rw [b, List.mem_cons]
      constructor
      · rintro (h2 | h2) <;> tauto
      · rintro (h2 | rfl | h2) <;> tauto
    · rw [if_neg h]
      obtain ⟨a, b, c⟩ := ih (List.nodup_cons.2 ⟨h, hn⟩) (cur + (w.length + 4))
      refine ⟨a, fun x => ?_, ?_⟩
      · rw [b, List.mem_cons, List.mem_cons]; tauto
      · have e : cost (w :: set) = w.length + 4 + cost set := by simp [cost]
        rw [e] at c
        omega

/-- The words in `set` are those of the names of `data`. -/
def SetOf (J : Json) (opt : PackerOpts) (data : List PushRequest) (set : List PName) : Prop :=
  set.Nodup ∧ ∀ x, x ∈ set ↔ ∃ p ∈ data, x ∈ mlegend J opt p

/-- What is left of the limit: `json`, after the requests of `data` and a set of words. -/
structure Acct (J : Json) (opt : PackerOpts) (E : Nat) (data : List PushRequest) (set : List PName) (json : Nat) : Prop where
  words : SetOf J opt data set
  all : E + (data.map (msize J opt)).sum + cost set + (data.length - 1) + json ≤ opt.jsonLimit
  more : 0 < json → E + (data.map (msize J opt)).sum + cost set + data.length + json ≤ opt.jsonLimit

/-- The loop of `multi_pop`. -/
theorem popLoop_spec (J : Json) (E : Nat) (fuel : Nat) (st : PopState) (hf : st.pk.top.length < fuel)
    (hi : PInv J st.pk) (hE : 0 < E) (hr : PushRoom st.pk.opt st.data.length st.pushes)
    (hp : st.pk.opt.pushLimit ≠ 0 → 0 < st.pushes) (hs : st.pk.opt.dataLimit ≠ 0 → 0 < st.samples)
    (ha : Acct J st.pk.opt E st.data st.set st.json) :
    ∃ st', popLoop J fuel st = .ok st' ∧ PInv J st'.pk ∧ st'.pk.opt = st.pk.opt ∧ st'.pk.handler = st.pk.handler ∧
      (st'.data ++ st'.pk.contents).Perm (st.data ++ st.pk.contents) ∧ st.data <+: st'.data ∧
      (st.pk.opt.pushLimit ≠ 0 → st'.data.length ≤ st.pk.opt.pushLimit) ∧
      (∃ set, Acct J st.pk.opt E st'.data set st'.json) ∧
      (st'.data = st.data → st.json = 0 ∨ (∀ t ∈ st.pk.top, st.json < t.size) ∨ st.pk.opt.nameCompact = true) := by
  induction fuel generalizing st with
  | zero => omega
  | succ fuel ih =>
    unfold popLoop
    have hle : st.pk.opt.pushLimit ≠ 0 → st.data.length ≤ st.pk.opt.pushLimit := fun h => by have := hr h; omega
    by_cases h0 : st.json = 0
    · rw [if_pos h0]
      exact ⟨st, rfl, hi, rfl, rfl, List.Perm.refl _, List.prefix_refl _, hle, ⟨_, ha⟩, fun _ => Or.inl h0⟩
    rw [if_neg h0]
    rcases popSize_spec hi st.json with ⟨h1, h2⟩ | ⟨t, pk', h1, i', o', hd', pm, h3, h4⟩
    · simp only [h1, bind_ok']
      exact ⟨_, rfl, hi, rfl, rfl, List.Perm.refl _, List.prefix_refl _, hle, ⟨_, ha⟩, fun _ => Or.inr (Or.inl h2)⟩
    · simp only [h1, bind_ok']
      have htm : t ∈ st.pk.top := pm.mem_iff.1 (by simp)
      have hmt := hi.meas t htm
      have hms : msize J st.pk.opt t.req = t.size := by unfold msize; rw [hmt]
      have hml : mlegend J st.pk.opt t.req = t.legend := by unfold mlegend; rw [hmt]
      obtain ⟨c1, c2, c3⟩ := charge_spec t.legend ha.words.1 t.size
      have hcon : (t.req :: pk'.contents).Perm st.pk.contents := by
        have := pm.map fun t => t.req
        exact this
      by_cases h5 : st.json ≥ (charge t.legend st.set t.size).2
      · rw [if_pos h5]
        obtain ⟨l1, l2, l3, l4⟩ := limits_spec (n := st.data.length) hr hp hs
        rw [← o'] at l1 l2 l3 l4
        have hlen : (t :: pk'.top).length = st.pk.top.length := pm.length_eq
        simp only [List.length_cons] at hlen
        have hjl : st.pk.opt.jsonLimit ≠ 0 := by have := ha.all; omega
        -- the account after the request was taken
        have hacct : Acct J st.pk.opt E (st.data ++ [t.req]) (charge t.legend st.set t.size).1
            (if st.json - (charge t.legend st.set t.size).2 > 0 then
              st.json - (charge t.legend st.set t.size).2 - (if pk'.opt.jsonLimit ≠ 0 then 1 else 0)
            else st.json - (charge t.legend st.set t.size).2) := by
          have hm := ha.more (by omega)
          have hsum : ((st.data ++ [t.req]).map (msize J st.pk.opt)).sum =
              (st.data.map (msize J st.pk.opt)).sum + t.size := by simp [hms]
          refine ⟨⟨c1, fun x => ?_⟩, ?_, ?_⟩
          · rw [c2, ha.words.2]
            simp only [List.mem_append, List.mem_singleton]
            constructor
            · rintro (⟨p, hp, hx⟩ | hx)
              · exact ⟨p, Or.inl hp, hx⟩
              · exact ⟨t.req, Or.inr rfl, by rw [hml]; exact hx⟩
            · rintro ⟨p, hp | rfl, hx⟩
              · exact Or.inl ⟨p, hp, hx⟩
              · rw [hml] at hx; exact Or.inr hx
          · rw [hsum, List.length_append, List.length_singleton, o', if_pos hjl]
            split <;> omega
          · intro hpos
            rw [hsum, List.length_append, List.length_singleton]
            rw [o', if_pos hjl] at hpos ⊢
            split at hpos <;> rename_i hgt
            · rw [if_pos hgt]; omega
            · omega
        have hsub : ¬ (st.data ++ [t.req] = st.data) := by
          intro h
          have := congrArg List.length h
          simp at this
        by_cases h6 : (limits pk'.opt st.pushes st.samples).1
        · rw [if_pos h6]
          refine ⟨_, rfl, i', o', hd', ?_, List.prefix_append _ _, ?_, ⟨_, hacct⟩, fun h => absurd h hsub⟩
          · show ((st.data ++ [t.req]) ++ pk'.contents).Perm _
            rw [List.append_assoc]
            exact List.Perm.append_left _ hcon
          · intro h
            have q := l2 (by rw [o']; exact h)
            rw [o'] at q
            show (st.data ++ [t.req]).length ≤ _
            rw [List.length_append, List.length_singleton]
            omega
        · rw [if_neg h6]
          simp only [Bool.not_eq_true] at h6
          obtain ⟨st', g1, g2, g3, g4, g5, g6, g7, g8, g9⟩ := ih
            { json := _, pushes := (limits pk'.opt st.pushes st.samples).2.1,
              samples := (limits pk'.opt st.pushes st.samples).2.2,
              set := (charge t.legend st.set t.size).1, pk := pk', data := st.data ++ [t.req] }
            (by show pk'.top.length < fuel; omega) i'
            (by show PushRoom pk'.opt (st.data ++ [t.req]).length _; rw [List.length_append]; exact l2)
            (l3 h6) (by show _ → 0 < (limits pk'.opt st.pushes st.samples).2.2; rw [l1, o']; exact hs)
            (by show Acct J pk'.opt E (st.data ++ [t.req]) _ _; rw [o']; rw [o'] at hacct; exact hacct)
          refine ⟨st', ?_, g2, g3.trans o', g4.trans hd', g5.trans ?_, (List.prefix_append _ _).trans g6, ?_, ?_, ?_⟩
          · rw [o'] at g1 ⊢; exact g1
          · show ((st.data ++ [t.req]) ++ pk'.contents).Perm _
            rw [List.append_assoc]
            exact List.Perm.append_left _ hcon
          · have := g7
            simp only [o'] at this
            exact this
          · obtain ⟨set, q⟩ := g8
            exact ⟨set, by simp only [o'] at q; exact q⟩
          · intro h
            rw [h] at g6
            have := g6.length_le
            simp at this
      · rw [if_neg h5]
        obtain ⟨pk2, k1, k2, k3, k4, k5⟩ := push_spec J i' (req := t.req) (n := t.size) (lg := t.legend) (by rw [o']; exact hmt)
        rw [k1, bind_ok']
        refine ⟨_, rfl, k2, k3.trans o', k4.trans hd', List.Perm.append_left _ (k5.trans hcon), List.prefix_refl _, hle,
          ⟨_, ha⟩, fun _ => Or.inr (Or.inr ?_)⟩
        by_contra hnc
        have hlg : t.legend = [] := by
          unfold measure at hmt
          simp only at hmt
          rw [if_neg hnc] at hmt
          simp at hmt
          exact hmt.2
        rw [hlg] at h5
        simp [charge] at h5
        omega

end Packer

end Wrtstat
