/-
C97: JSON forms of records and replies.
-/
import Verif.Model.JsonRecords
import Verif.Props.Json

namespace Wrtstat

set_option autoImplicit false

/-- All numbers are values of their C++ types. -/
structure AggData.InRange (a : AggData) : Prop where
  ts : I64 a.ts
  avg : I64 a.avg
  min : I64 a.min
  max : I64 a.max
  perc50 : I64 a.perc50
  perc80 : I64 a.perc80
  perc95 : I64 a.perc95
  perc99 : I64 a.perc99
  perc100 : I64 a.perc100
  data : ∀ v ∈ a.data, I64 v
  count : a.count < 2 ^ 64
  lossy : a.lossy < 2 ^ 64

/-- `b` with the members common to the types `K` and `L` replaced by those of `a`. -/
def copyCommon (K L : RecKind) (a b : AggData) : AggData :=
  let i := K.info && L.info
  let p := K.perc && L.perc
  let d := K.data && L.data
  { ts := if i then a.ts else b.ts
    avg := if i then a.avg else b.avg
    count := if i then a.count else b.count
    lossy := if i then a.lossy else b.lossy
    min := if i then a.min else b.min
    max := if i then a.max else b.max
    perc50 := if p then a.perc50 else b.perc50
    perc80 := if p then a.perc80 else b.perc80
    perc95 := if p then a.perc95 else b.perc95
    perc99 := if p then a.perc99 else b.perc99
    perc100 := if p then a.perc100 else b.perc100
    data := if d then a.data else b.data }

theorem readMembers_ok {R : Type} {strict : Bool} {fs : List (Field R)} {k : PName} {v : JVal} {f : Field R} {r r' : R}
    (hf : fs.find? (fun f => f.key == k) = some f) (hs : f.set v r = (r', true)) (l : List (PName × JVal)) :
    readMembers strict fs ((k, v) :: l) r = readMembers strict fs l r' := by
  rw [readMembers, hf]
  simp only [hs]

theorem readMembers_skip {R : Type} {fs : List (Field R)} {k : PName} {v : JVal} (hf : fs.find? (fun f => f.key == k) = none) (r : R)
    (l : List (PName × JVal)) : readMembers false fs ((k, v) :: l) r = readMembers false fs l r := by
  rw [readMembers, hf]
  rfl

theorem find_key {R : Type} (all : List (Field R)) (hk : (all.map (·.key)).Nodup) (Q : PName → Bool) (f : Field R) (hf : f ∈ all) :
    (all.filter fun g => Q g.key).find? (fun g => g.key == f.key) = if Q f.key then some f else none := by
  induction all with
  | nil => simp at hf
  | cons g l ih =>
    rw [List.map_cons, List.nodup_cons] at hk
    rcases List.mem_cons.1 hf with rfl | h
    · by_cases hq : Q f.key = true
      · rw [List.filter_cons_of_pos (by exact hq), List.find?_cons_of_pos (by simp), if_pos hq]
      · rw [List.filter_cons_of_neg (by exact hq), if_neg hq, List.find?_eq_none]
        intro g hg e
        exact hk.1 (List.mem_map.2 ⟨g, (List.mem_filter.1 hg).1, by simpa using e⟩)
    · have hne : ¬ (g.key == f.key) = true := fun e => hk.1 (List.mem_map.2 ⟨f, h, by simpa using (beq_iff_eq.1 e).symm⟩)
      by_cases hq : Q g.key = true
      · rw [List.filter_cons_of_pos (by exact hq), List.find?_cons_of_neg (by exact hne), ih hk.2 h]
      · rw [List.filter_cons_of_neg (by exact hq), ih hk.2 h]

/-- The members chosen by `P` are written and those chosen by `Q` are read. -/
theorem readMembers_common {R : Type} (all : List (Field R × (R → R))) (hk : (all.map (·.1.key)).Nodup) (r : R)
    (h : ∀ p ∈ all, ∀ r0, p.1.set (p.1.get r) r0 = (p.2 r0, true)) (P Q : PName → Bool) (r0 : R) :
    readMembers false ((all.map (·.1)).filter fun f => Q f.key)
        (((all.map (·.1)).filter fun f => P f.key).map fun f => (f.key, f.get r)) r0 =
      ((all.filter fun p => P p.1.key && Q p.1.key).foldl (fun r p => p.2 r) r0, true) := by
  have hk' : ((all.map (·.1)).map (·.key)).Nodup := by rw [List.map_map]; exact hk
  generalize hfs : (all.map (·.1)).filter (fun f => Q f.key) = fs
  suffices g : ∀ l : List (Field R × (R → R)), (∀ p ∈ l, p ∈ all) → ∀ r0,
      readMembers false fs (((l.map (·.1)).filter fun f => P f.key).map fun f => (f.key, f.get r)) r0 =
      ((l.filter fun p => P p.1.key && Q p.1.key).foldl (fun r p => p.2 r) r0, true) from g all (fun _ h => h) r0
  intro l
  induction l with
  | nil => intro _ r0; rfl
  | cons p l ih =>
    intro hl r0
    have hp := hl p (by simp)
    have ih := ih fun q hq => hl q (by simp [hq])
    have hf := find_key (all.map (·.1)) hk' Q p.1 (List.mem_map_of_mem hp)
    rw [hfs] at hf
    rw [List.map_cons]
    by_cases h1 : P p.1.key = true
    · rw [List.filter_cons_of_pos (by exact h1), List.map_cons]
      by_cases h2 : Q p.1.key = true
      · rw [if_pos h2] at hf
        rw [readMembers_ok hf (h p hp r0), ih, List.filter_cons_of_pos (by rw [h1, h2]; rfl)]
        rfl
      · rw [if_neg h2] at hf
        rw [readMembers_skip hf, ih, List.filter_cons_of_neg (by simp [h2])]
    · rw [List.filter_cons_of_neg (by exact h1), ih, List.filter_cons_of_neg (by simp [h1])]

/-- The members of all records, and what reading them from `a` does. -/
def allMembers (a : AggData) : List (Field AggData × (AggData → AggData)) :=
  (recCodec false .aggData).zip [fun r => { r with ts := a.ts }, fun r => { r with avg := a.avg }, fun r => { r with count := a.count },
    fun r => { r with perc50 := a.perc50 }, fun r => { r with perc80 := a.perc80 }, fun r => { r with perc95 := a.perc95 },
    fun r => { r with perc99 := a.perc99 }, fun r => { r with perc100 := a.perc100 }, fun r => { r with lossy := a.lossy },
    fun r => { r with min := a.min }, fun r => { r with max := a.max }, fun r => { r with data := a.data }]

/-- The names of the members of a type. -/
def hasKey (K : RecKind) (k : PName) : Bool :=
  if k = "data".toList then K.data else if k.take 4 = "perc".toList then K.perc else K.info

/-- In the plain form a record of one type is read as a record of any other type: the common members are taken over, the others
are left as they were. -/
theorem C97_plain (K L : RecKind) (a b : AggData) (ha : a.InRange) :
    readJson false (recCodec false L) (write false (recCodec false K) a) b = (copyCommon K L a b, true) := by
  obtain ⟨h1, h2, h3, h4, h5, h6, h7, h8, h9, h10, h11, h12⟩ := ha
  have hc : ∀ K, recCodec false K = ((allMembers a).map (·.1)).filter fun f => hasKey K f.key := by
    intro K; cases K <;> rfl
  have := readMembers_common (allMembers a) (by
    show ((recCodec false .aggData).map (·.key)).Nodup
    decide) a (by
    simp only [allMembers, recCodec, RecKind.info, RecKind.perc, RecKind.data, headMembers, percMembers, tailMembers, dataMember, if_true,
      Bool.false_eq_true, if_false, List.cons_append, List.nil_append,
      List.zip_cons_cons, List.zip_nil_right, List.forall_mem_cons, List.not_mem_nil, false_implies, implies_true, and_true]
    exact ⟨intField_set _ _ _ h1, intField_set _ _ _ h2, natField_set _ _ _ h11, intField_set _ _ _ h5,
        intField_set _ _ _ h6, intField_set _ _ _ h7, intField_set _ _ _ h8, intField_set _ _ _ h9, natField_set _ _ _ h12,
        intField_set _ _ _ h3, intField_set _ _ _ h4, intsField_set _ _ _ h10⟩) (hasKey K) (hasKey L) b
  rw [← hc K, ← hc L] at this
  show readMembers false (recCodec false L) ((recCodec false K).map fun f => (f.key, f.get a)) b = _
  rw [this]
  cases K <;> cases L <;> rfl

/-! ### The compact form -/

theorem readElems_short {R : Type} (fs : List (Field R)) (l : List JVal) (r : R) (h : fs.length < l.length) :
    (readElems fs l r).2 = false := by
  induction fs generalizing l r with
  | nil =>
    cases l with
    | nil => simp at h
    | cons v l => rfl
  | cons f fs ih =>
    cases l with
    | nil => simp at h
    | cons v l =>
      rw [readElems]
      split
      · exact ih _ _ (by simpa using h)
      · rfl

theorem readElems_bad {R : Type} (fs : List (Field R)) (l : List JVal) (r : R) (i : Nat) (f : Field R) (v : JVal)
    (hf : fs[i]? = some f) (hv : l[i]? = some v) (h : ∀ r, (f.set v r).2 = false) : (readElems fs l r).2 = false := by
  induction i generalizing fs l r with
  | zero =>
    cases fs with
    | nil => simp at hf
    | cons g fs =>
      cases l with
      | nil => simp at hv
      | cons w l =>
        simp only [List.getElem?_cons_zero, Option.some.injEq] at hf hv
        subst hf hv
        have := h r
        rw [readElems]
        split
        · rename_i e
          rw [e] at this
          cases this
        · rfl
  | succ i ih =>
    cases fs with
    | nil => simp at hf
    | cons g fs =>
      cases l with
      | nil => simp at hv
      | cons w l =>
        rw [readElems]
        split
        · exact ih _ _ _ (by simpa using hf) (by simpa using hv)
        · rfl

/-- Fewer elements than members: the first members are read. -/
theorem readElems_prefix {R : Type} (fs gs : List (Field R)) (r : R) (ok : List (R → R)) (hl : ok.length = fs.length)
    (h : ∀ p ∈ fs.zip ok, ∀ r0, p.1.set (p.1.get r) r0 = (p.2 r0, true)) (r0 : R) :
    readElems (fs ++ gs) (fs.map fun f => f.get r) r0 = (ok.foldl (fun r f => f r) r0, true) := by
  induction fs generalizing ok r0 with
  | nil =>
    cases ok with
    | nil => cases gs <;> rfl
    | cons a ok => simp at hl
  | cons f l ih =>
    cases ok with
    | nil => simp at hl
    | cons a ok =>
      have e : f.set (f.get r) r0 = (a r0, true) := h (f, a) (by simp) r0
      rw [List.map_cons, List.cons_append, readElems]
      simp only [e, List.foldl_cons]
      exact ih ok (by simpa using hl) (fun p hp => h p (by simp [hp])) _

/-- The claim: what one type of record writes in the compact form is read by another type with the common members in their
places, or not at all. -/
def CompactSafe (K L : RecKind) : Prop :=
  ∀ a b r : AggData, a.InRange → readJson true (recCodec true L) (write true (recCodec true K) a) b = (r, true) → r = copyCommon K L a b

/-- The pairs for which it fails. -/
def Confusable (K L : RecKind) : Prop :=
  (K = .reducedInfo ∧ (L = .aggInfo ∨ L = .aggData)) ∨ (K = .aggPerc ∧ L ≠ .aggPerc)

instance (K L : RecKind) : Decidable (Confusable K L) := inferInstanceAs (Decidable (_ ∨ _))

def C97_FullClaim : Prop := ∀ K L, CompactSafe K L

/-- What writing and reading the members of a type in the compact form does. -/
theorem elems_ok (K : RecKind) (a : AggData) (ha : a.InRange) : ∃ ok : List (AggData → AggData), ok.length = (recCodec true K).length ∧
    (∀ p ∈ (recCodec true K).zip ok, ∀ r0, p.1.set (p.1.get a) r0 = (p.2 r0, true)) ∧
    ∀ b, ok.foldl (fun r f => f r) b = copyCommon K K a b := by
  obtain ⟨h1, h2, h3, h4, h5, h6, h7, h8, h9, h10, h11, h12⟩ := ha
  refine ⟨(if K.info then [fun r => { r with ts := a.ts }, fun r => { r with avg := a.avg }, fun r => { r with count := a.count }] else []) ++
    (if K.perc then [fun r => { r with perc50 := a.perc50 }, fun r => { r with perc80 := a.perc80 }, fun r => { r with perc95 := a.perc95 },
      fun r => { r with perc99 := a.perc99 }, fun r => { r with perc100 := a.perc100 }] else []) ++
    (if K.info then [fun r => { r with min := a.min }, fun r => { r with max := a.max }, fun r => { r with lossy := a.lossy }] else []) ++
    (if K.data then [fun r => { r with data := a.data }] else []), ?_, ?_, ?_⟩
  · cases K <;> rfl
  · cases K <;>
    simp only [recCodec, RecKind.info, RecKind.perc, RecKind.data, headMembers, percMembers, tailElems, dataMember, if_true,
      Bool.false_eq_true, if_false, List.cons_append, List.nil_append, List.append_nil,
      List.zip_cons_cons, List.zip_nil_right, List.forall_mem_cons, List.not_mem_nil, false_implies, implies_true, and_true]
    · exact ⟨intField_set _ _ _ h1, intField_set _ _ _ h2, natField_set _ _ _ h11, intField_set _ _ _ h3, intField_set _ _ _ h4,
        natField_set _ _ _ h12⟩
    · exact ⟨intField_set _ _ _ h1, intField_set _ _ _ h2, natField_set _ _ _ h11, intField_set _ _ _ h3, intField_set _ _ _ h4,
        natField_set _ _ _ h12, intsField_set _ _ _ h10⟩
    · exact ⟨intField_set _ _ _ h5, intField_set _ _ _ h6, intField_set _ _ _ h7, intField_set _ _ _ h8, intField_set _ _ _ h9⟩
    · exact ⟨intField_set _ _ _ h1, intField_set _ _ _ h2, natField_set _ _ _ h11, intField_set _ _ _ h5,
        intField_set _ _ _ h6, intField_set _ _ _ h7, intField_set _ _ _ h8, intField_set _ _ _ h9,
        intField_set _ _ _ h3, intField_set _ _ _ h4, natField_set _ _ _ h12⟩
    · exact ⟨intField_set _ _ _ h1, intField_set _ _ _ h2, natField_set _ _ _ h11, intField_set _ _ _ h5,
        intField_set _ _ _ h6, intField_set _ _ _ h7, intField_set _ _ _ h8, intField_set _ _ _ h9,
        intField_set _ _ _ h3, intField_set _ _ _ h4, natField_set _ _ _ h12, intsField_set _ _ _ h10⟩
  · intro b
    cases K <;> rfl

/-- A type whose members are the first of another type's. -/
theorem prefix_ok (K L : RecKind) (a b : AggData) (ha : a.InRange) (gs : List (Field AggData))
    (h : recCodec true L = recCodec true K ++ gs) :
    readJson true (recCodec true L) (write true (recCodec true K) a) b = (copyCommon K K a b, true) := by
  obtain ⟨ok, h1, h2, h3⟩ := elems_ok K a ha
  rw [h]
  show readElems _ ((recCodec true K).map fun f => f.get a) b = _
  rw [readElems_prefix _ gs a ok h1 h2, h3]

/-- In the compact form too, what is written of a record is read back. -/
theorem C97_compact (K : RecKind) (a b : AggData) (ha : a.InRange) :
    readJson true (recCodec true K) (write true (recCodec true K) a) b = (copyCommon K K a b, true) :=
  prefix_ok K K a b ha [] (by simp)

/-- A record as a `reduced_info`, an `aggregated_perc`, and what they look like in the compact form. -/
def exRec : AggData :=
  { ts := 1, avg := 2, count := 3, lossy := 6, min := 4, max := 5, perc50 := 50, perc80 := 80, perc95 := 95, perc99 := 99, perc100 := 100, data := [7, 8] }

theorem exRec_ok : exRec.InRange := by
  refine ⟨?_, ?_, ?_, ?_, ?_, ?_, ?_, ?_, ?_, ?_, ?_, ?_⟩ <;> decide

/-- A `reduced_info` is accepted as an `aggregated_info`: its least sample becomes the median, its greatest the 80% percentile and
its `lossy` the 95% one. -/
theorem C97_refuted : ¬ C97_FullClaim := by
  intro h
  have := h .reducedInfo .aggInfo exRec {} { ts := 1, avg := 2, count := 3, perc50 := 4, perc80 := 5, perc95 := 6 } exRec_ok rfl
  exact absurd this (by decide)

/-- What is left: for all other pairs of types a compact record is read with the common members in their places or not at all, and
for the pairs excluded it never is so for all records. -/
theorem C97_compact_partial (K L : RecKind) : CompactSafe K L ↔ ¬ Confusable K L := by
  constructor
  · intro h hc
    cases K <;> cases L <;> first
      | exact absurd hc (by decide)
      | exact absurd (h exRec {} _ exRec_ok rfl) (by decide)
  · intro hc a b r ha hr
    have short : ∀ {K L : RecKind}, (recCodec true L).length < (recCodec true K).length →
        (readJson true (recCodec true L) (write true (recCodec true K) a) b).2 = false := by
      intro K L h
      exact readElems_short (recCodec true L) ((recCodec true K).map fun f => f.get a) b (by rw [List.length_map]; exact h)
    have no : (readJson true (recCodec true L) (write true (recCodec true K) a) b).2 = false → r = copyCommon K L a b := by
      intro h
      rw [hr] at h
      cases h
    have pre : ∀ gs, recCodec true L = recCodec true K ++ gs → copyCommon K K a b = copyCommon K L a b → r = copyCommon K L a b := by
      intro gs h e
      rw [prefix_ok K L a b ha gs h] at hr
      rw [← e]
      exact (congrArg Prod.fst hr).symm
    have arr : K = .reducedData → L.perc = true → L.info = true →
        (readJson true (recCodec true L) (write true (recCodec true K) a) b).2 = false := by
      intro hK h1 h2
      subst hK
      refine readElems_bad _ ((recCodec true .reducedData).map fun f => f.get a) b 6
        (intField [] (·.perc99) (fun v a => { a with perc99 := v })) (.arr (a.data.map .num)) ?_ rfl fun _ => rfl
      cases L <;> first | rfl | exact Bool.noConfusion h1 | exact Bool.noConfusion h2
    cases K <;> cases L <;> first
      | exact absurd hc (by decide)
      | exact pre [] rfl rfl
      | exact pre [dataMember fun _ => []] rfl rfl
      | exact no (short (by decide))
      | exact no (arr rfl rfl rfl)

/-- An array read as an object or an object as an array is rejected, and nothing is taken from it. -/
theorem C97_forms (c : Bool) (K L : RecKind) (a b : AggData) :
    readJson c (recCodec c L) (write (!c) (recCodec (!c) K) a) b = (b, false) := by
  cases c <;> rfl

/-- A `push` is its name and a record of type `aggregated_data`. -/
theorem C97_push (c : Bool) (p p0 : PushRequest) (hp : p.InRange) :
    (match write c (pushCodec c) p, write c (recCodec c .aggData) p.ag with
      | .obj l, .obj m => l = ("name".toList, .str p.name) :: m
      | .arr l, .arr m => l = .str p.name :: m
      | _, _ => False) ∧
    readJson c (recCodec c .aggData) (match write c (pushCodec c) p with
      | .arr (_ :: l) => .arr l
      | j => j) p0.ag = (p.ag, true) := by
  have ha : p.ag.InRange := ⟨hp.1, hp.2, hp.3, hp.4, hp.5, hp.6, hp.7, hp.8, hp.9, hp.10, hp.11, hp.12⟩
  cases c
  · refine ⟨rfl, ?_⟩
    have : readJson false (recCodec false .aggData) (write false (pushCodec false) p) p0.ag =
        readJson false (recCodec false .aggData) (write false (recCodec false .aggData) p.ag) p0.ag := by
      show readMembers false (recCodec false .aggData) (("name".toList, .str p.name) ::
        (recCodec false .aggData).map fun f => (f.key, f.get p.ag)) p0.ag = _
      exact readMembers_skip (by decide) _ _
    exact this.trans (C97_plain .aggData .aggData p.ag p0.ag ha)
  · exact ⟨rfl, C97_compact .aggData p.ag p0.ag ha⟩

/-! ### Replies -/

/-- A reply is read back, through any text; a reply to a batch is read as a reply to a `push` only in the plain form, and the other
way round in both. -/
theorem C97_replies (T : JsonText) (c : Bool) (p p0 : PushReply) (m m0 : MultiReply) (d d0 : DelReply) :
    (T.parse ((write c pushReplyCodec p).text T.q)).map (fun j => readJson c pushReplyCodec j p0) = some (p, true) ∧
    (T.parse ((write c multiReplyCodec m).text T.q)).map (fun j => readJson c multiReplyCodec j m0) = some (m, true) ∧
    (T.parse ((write c delReplyCodec d).text T.q)).map (fun j => readJson c delReplyCodec j d0) = some (d, true) ∧
    (T.parse ((write c multiReplyCodec m).text T.q)).map (fun j => readJson c pushReplyCodec j p0) = some ({ status := m.status }, !c) ∧
    (T.parse ((write c pushReplyCodec p).text T.q)).map (fun j => readJson c multiReplyCodec j m0) =
      some ({ m0 with status := p.status }, true) := by
  simp only [T.parse_text, Option.map_some]
  cases c <;> exact ⟨rfl, rfl, rfl, rfl, rfl⟩

example : (T : JsonText) → (T.parse ((write true multiReplyCodec { status := false, error := "x".toList }).text T.q)).map
    (fun j => readJson true pushReplyCodec j {}) = some ({ status := false }, false) :=
  fun T => (C97_replies T true {} {} { status := false, error := "x".toList } {} {} {}).2.2.2.1

end Wrtstat
