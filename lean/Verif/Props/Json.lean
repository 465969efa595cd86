/-
C58, C75 to C79: JSON forms of requests and options, and `load_options`.
-/
import Verif.Model.JsonInstances
import Mathlib.Tactic.Common

namespace Wrtstat

set_option autoImplicit false

/-! ### C75 -/

/-- The value of a `time_t`. -/
abbrev I64 (v : Int) : Prop := -2 ^ 63 ≤ v ∧ v < 2 ^ 63

/-- All numbers are values of their C++ types. -/
structure PushRequest.InRange (p : PushRequest) : Prop where
  ts : I64 p.ag.ts
  avg : I64 p.ag.avg
  min : I64 p.ag.min
  max : I64 p.ag.max
  perc50 : I64 p.ag.perc50
  perc80 : I64 p.ag.perc80
  perc95 : I64 p.ag.perc95
  perc99 : I64 p.ag.perc99
  perc100 : I64 p.ag.perc100
  data : ∀ v ∈ p.ag.data, I64 v
  count : p.ag.count < 2 ^ 64
  lossy : p.ag.lossy < 2 ^ 64

theorem readInts_num (l : List Int) (h : ∀ v ∈ l, I64 v) : readInts (l.map .num) = some l := by
  induction l with
  | nil => rfl
  | cons v l ih =>
    rw [List.map_cons, readInts, if_pos (h v (by simp)), ih fun w hw => h w (by simp [hw])]
    rfl

theorem readStrs_str (l : List PName) : readStrs (l.map .str) = some l := by
  induction l with
  | nil => rfl
  | cons v l ih => rw [List.map_cons, readStrs, ih]; rfl

theorem intField_set {R : Type} (key : PName) (get : R → Int) (put : Int → R → R) {v : Int} (h : I64 v) (r : R) :
    (intField key get put).set (.num v) r = (put v r, true) := if_pos h

theorem natField_set {R : Type} (key : PName) (get : R → Nat) (put : Nat → R → R) {v : Nat} (h : v < 2 ^ 64) (r : R) :
    (natField key get put).set (.num v) r = (put v r, true) := by
  unfold natField
  simp only
  rw [if_pos ⟨by omega, by omega⟩, Int.toNat_natCast]

theorem strField_set {R : Type} (key : PName) (get : R → PName) (put : PName → R → R) (v : PName) (r : R) :
    (strField key get put).set (.str v) r = (put v r, true) := rfl

theorem boolField_set {R : Type} (key : PName) (get : R → Bool) (put : Bool → R → R) (v : Bool) (r : R) :
    (boolField key get put).set (.bool v) r = (put v r, true) := rfl

theorem intsField_set {R : Type} (key : PName) (get : R → List Int) (put : List Int → R → R) {l : List Int}
    (h : ∀ v ∈ l, I64 v) (r : R) : (intsField key get put).set (.arr (l.map .num)) r = (put l r, true) := by
  unfold intsField
  simp only [readInts_num l h]

theorem strsField_set {R : Type} (key : PName) (get : R → List PName) (put : List PName → R → R) (l : List PName) (r : R) :
    (strsField key get put).set (.arr (l.map .str)) r = (put l r, true) := by
  unfold strsField
  simp only [readStrs_str l]

/-- Members with different names are read back one after the other. -/
theorem readMembers_write {R : Type} (fs : List (Field R)) (r : R) (ok : List (R → R))
    (hk : (fs.map (·.key)).Nodup) (hl : ok.length = fs.length)
    (h : ∀ p ∈ fs.zip ok, ∀ r0, p.1.set (p.1.get r) r0 = (p.2 r0, true)) (strict : Bool) (r0 : R) :
    readMembers strict fs (fs.map fun f => (f.key, f.get r)) r0 = (ok.foldl (fun r f => f r) r0, true) := by
  suffices g : ∀ (l1 l : List (Field R)) (ok : List (R → R)), l1 ++ l = fs → ok.length = l.length →
      (∀ p ∈ l.zip ok, ∀ r0, p.1.set (p.1.get r) r0 = (p.2 r0, true)) → ∀ r0,
      readMembers strict fs (l.map fun f => (f.key, f.get r)) r0 = (ok.foldl (fun r f => f r) r0, true) from
    g [] fs ok rfl hl h r0
  intro l1 l
  induction l generalizing l1 with
  | nil =>
    intro ok _ h1 _ r0
    cases ok with
    | nil => rfl
    | cons a ok => simp at h1
  | cons f l ih =>
    intro ok he h1 h2 r0
    cases ok with
    | nil => simp at h1
    | cons a ok =>
      have hf : fs.find? (fun g => g.key == f.key) = some f := by
        rw [← he, List.find?_append]
        have : l1.find? (fun g => g.key == f.key) = none := by
          rw [List.find?_eq_none]
          intro g hg e
          rw [← he, List.map_append, List.nodup_append] at hk
          exact hk.2.2 _ (List.mem_map_of_mem hg) _ (List.mem_map_of_mem (by simp : f ∈ f :: l)) (by simpa using e)
        rw [this]
        simp
      have e : f.set (f.get r) r0 = (a r0, true) := h2 (f, a) (by simp) r0
      rw [List.map_cons, readMembers]
      simp only [hf, e, List.foldl_cons]
      refine ih (l1 ++ [f]) ok (by simp [← he]) (by simpa using h1) (fun p hp => h2 p (by simp [hp])) _

/-- Values are read back one after the other. -/
theorem readElems_write {R : Type} (fs : List (Field R)) (r : R) (ok : List (R → R)) (hl : ok.length = fs.length)
    (h : ∀ p ∈ fs.zip ok, ∀ r0, p.1.set (p.1.get r) r0 = (p.2 r0, true)) (r0 : R) :
    readElems fs (fs.map fun f => f.get r) r0 = (ok.foldl (fun r f => f r) r0, true) := by
  induction fs generalizing ok r0 with
  | nil =>
    cases ok with
    | nil => rfl
    | cons a ok => simp at hl
  | cons f l ih =>
    cases ok with
    | nil => simp at hl
    | cons a ok =>
      have e : f.set (f.get r) r0 = (a r0, true) := h (f, a) (by simp) r0
      rw [List.map_cons, readElems]
      simp only [e, List.foldl_cons]
      exact ih ok (by simpa using hl) (fun p hp => h p (by simp [hp])) _

/-- What is written of a `push`, plain or compact, is read back as the same request. -/
theorem C75_push (compact : Bool) (p : PushRequest) (hp : p.InRange) (p0 : PushRequest) :
    readJson compact (pushCodec compact) (write compact (pushCodec compact) p) p0 = (p, true) := by
  obtain ⟨h1, h2, h3, h4, h5, h6, h7, h8, h9, h10, h11, h12⟩ := hp
  cases compact
  · show readMembers false pushFields (pushFields.map fun f => (f.key, f.get p)) p0 = _
    rw [readMembers_write pushFields p [fun r => { r with name := p.name }, fun r => { r with ag := { r.ag with ts := p.ag.ts } },
      fun r => { r with ag := { r.ag with avg := p.ag.avg } }, fun r => { r with ag := { r.ag with count := p.ag.count } },
      fun r => { r with ag := { r.ag with perc50 := p.ag.perc50 } }, fun r => { r with ag := { r.ag with perc80 := p.ag.perc80 } },
      fun r => { r with ag := { r.ag with perc95 := p.ag.perc95 } }, fun r => { r with ag := { r.ag with perc99 := p.ag.perc99 } },
      fun r => { r with ag := { r.ag with perc100 := p.ag.perc100 } }, fun r => { r with ag := { r.ag with lossy := p.ag.lossy } },
      fun r => { r with ag := { r.ag with min := p.ag.min } }, fun r => { r with ag := { r.ag with max := p.ag.max } },
      fun r => { r with ag := { r.ag with data := p.ag.data } }] (by decide) rfl]
    · rfl
    · simp only [pushFields, List.zip_cons_cons, List.zip_nil_right, List.forall_mem_cons, List.not_mem_nil, false_implies,
        implies_true, and_true]
      exact ⟨fun _ => rfl, intField_set _ _ _ h1, intField_set _ _ _ h2, natField_set _ _ _ h11, intField_set _ _ _ h5,
        intField_set _ _ _ h6, intField_set _ _ _ h7, intField_set _ _ _ h8, intField_set _ _ _ h9, natField_set _ _ _ h12,
        intField_set _ _ _ h3, intField_set _ _ _ h4, intsField_set _ _ _ h10⟩
  · show readElems pushElems (pushElems.map fun f => f.get p) p0 = _
    rw [readElems_write pushElems p [fun r => { r with name := p.name }, fun r => { r with ag := { r.ag with ts := p.ag.ts } },
      fun r => { r with ag := { r.ag with avg := p.ag.avg } }, fun r => { r with ag := { r.ag with count := p.ag.count } },
      fun r => { r with ag := { r.ag with perc50 := p.ag.perc50 } }, fun r => { r with ag := { r.ag with perc80 := p.ag.perc80 } },
      fun r => { r with ag := { r.ag with perc95 := p.ag.perc95 } }, fun r => { r with ag := { r.ag with perc99 := p.ag.perc99 } },
      fun r => { r with ag := { r.ag with perc100 := p.ag.perc100 } },
      fun r => { r with ag := { r.ag with min := p.ag.min } }, fun r => { r with ag := { r.ag with max := p.ag.max } },
      fun r => { r with ag := { r.ag with lossy := p.ag.lossy } },
      fun r => { r with ag := { r.ag with data := p.ag.data } }] rfl]
    · rfl
    · simp only [pushElems, List.zip_cons_cons, List.zip_nil_right, List.forall_mem_cons, List.not_mem_nil, false_implies,
        implies_true, and_true]
      exact ⟨fun _ => rfl, intField_set _ _ _ h1, intField_set _ _ _ h2, natField_set _ _ _ h11, intField_set _ _ _ h5,
        intField_set _ _ _ h6, intField_set _ _ _ h7, intField_set _ _ _ h8, intField_set _ _ _ h9,
        intField_set _ _ _ h3, intField_set _ _ _ h4, natField_set _ _ _ h12, intsField_set _ _ _ h10⟩

theorem readPushes_write (compact : Bool) (l : List PushRequest) (h : ∀ p ∈ l, p.InRange) :
    readPushes compact (l.map (write compact (pushCodec compact))) = some l := by
  induction l with
  | nil => rfl
  | cons p l ih =>
    rw [List.map_cons, readPushes, C75_push compact p (h p (by simp))]
    simp only [ih fun q hq => h q (by simp [hq])]
    rfl

/-- What is written of a `multi_push`, plain or compact, is read back as the same request. -/
theorem C75_multi (compact : Bool) (m : MultiPush) (hm : ∀ p ∈ m.data, p.InRange) (m0 : MultiPush) :
    readJson compact (multiCodec compact) (write compact (multiCodec compact) m) m0 = (m, true) := by
  have hs : ∀ p ∈ (multiCodec compact).zip [fun r : MultiPush => { r with sep := m.sep }, fun r => { r with legend := m.legend },
      fun r => { r with data := m.data }], ∀ r0, p.1.set (p.1.get m) r0 = (p.2 r0, true) := by
    simp only [multiCodec, List.zip_cons_cons, List.zip_nil_right, List.forall_mem_cons, List.not_mem_nil, false_implies,
      implies_true, and_true]
    refine ⟨fun _ => rfl, fun _ => strsField_set _ _ _ _ _, fun r => ?_⟩
    simp only [readPushes_write compact m.data hm]
  cases compact
  · show readMembers false (multiCodec false) ((multiCodec false).map fun f => (f.key, f.get m)) m0 = _
    rw [readMembers_write (multiCodec false) m _ (by decide) (by rfl) hs]
    rfl
  · show readElems (multiCodec true) ((multiCodec true).map fun f => f.get m) m0 = _
    rw [readElems_write (multiCodec true) m _ (by rfl) hs]
    rfl

/-- The same for texts: whatever reads back what it has written gives the same request. -/
theorem C75_text (T : JsonText) (compact : Bool) (m : MultiPush) (hm : ∀ p ∈ m.data, p.InRange) (m0 : MultiPush) :
    (T.parse ((write compact (multiCodec compact) m).text T.q)).map (fun j => readJson compact (multiCodec compact) j m0) =
      some (m, true) := by
  rw [T.parse_text, Option.map_some, C75_multi compact m hm]

/-- What is written of a `del`, plain or compact, is read back as the same request, through any text. -/
theorem C75_del (T : JsonText) (compact : Bool) (d d0 : DelRequest) :
    (T.parse ((write compact delCodec d).text T.q)).map (fun j => readJson compact delCodec j d0) = some (d, true) := by
  have hs : ∀ p ∈ delCodec.zip [fun r : DelRequest => { r with names := d.names }], ∀ r0, p.1.set (p.1.get d) r0 = (p.2 r0, true) := by
    simp only [delCodec, List.zip_cons_cons, List.zip_nil_right, List.forall_mem_cons, List.not_mem_nil, false_implies,
      implies_true, and_true]
    exact fun _ => strsField_set _ _ _ _ _
  rw [T.parse_text, Option.map_some]
  cases compact
  · show some (readMembers false delCodec (delCodec.map fun f => (f.key, f.get d)) d0) = _
    rw [readMembers_write delCodec d _ (by decide) (by rfl) hs]
    rfl
  · show some (readElems delCodec (delCodec.map fun f => f.get d) d0) = _
    rw [readElems_write delCodec d _ (by rfl) hs]
    rfl

example : (write false delCodec {}).text quote = "{\"names\":[]}".toList ∧
    (write true delCodec { names := ["a".toList, "b".toList] }).text quote = "[[\"a\",\"b\"]]".toList := by
  decide +kernel

/-- An example request. -/
def exPush : PushRequest :=
  { name := "a\"b".toList, ag := { ts := -5, count := 7, lossy := 4, min := 1, max := 9, avg := 3, data := [1, -2, 9], perc50 := 1, perc80 := 2, perc95 := 3, perc99 := 4, perc100 := 9 } }

example : (write false pushFields exPush).text quote =
    "{\"name\":\"a\\\"b\",\"ts\":-5,\"avg\":3,\"count\":7,\"perc50\":1,\"perc80\":2,\"perc95\":3,\"perc99\":4,\"perc100\":9,\"lossy\":4,\"min\":1,\"max\":9,\"data\":[1,-2,9]}".toList := by
  decide +kernel

example : (write true pushElems exPush).text quote = "[\"a\\\"b\",-5,3,7,1,2,3,4,9,1,9,4,[1,-2,9]]".toList := by
  decide +kernel

/-- The texts of tests/json_suite.cpp:62-77. -/
example : (write false (multiCodec false) {}).text quote = "{\"sep\":\"~~\",\"legend\":[],\"data\":[]}".toList ∧
    (write true (multiCodec true) {}).text quote = "[\"~~\",[],[]]".toList ∧
    (write false pushFields {}).text quote =
      "{\"name\":\"\",\"ts\":0,\"avg\":0,\"count\":0,\"perc50\":0,\"perc80\":0,\"perc95\":0,\"perc99\":0,\"perc100\":0,\"lossy\":0,\"min\":0,\"max\":0,\"data\":[]}".toList ∧
    (write true pushElems {}).text quote = "[\"\",0,0,0,0,0,0,0,0,0,0,0,[]]".toList := by
  decide +kernel

/-! ### C79 -/

theorem length_elemsTail (q : PName → PName) (l : List JVal) :
    (JVal.elemsTail q l).length = (l.map fun x => (x.text q).length).sum + l.length := by
  induction l with
  | nil => rfl
  | cons x l ih =>
    simp only [JVal.elemsTail, List.length_cons, List.length_append, ih, List.map_cons, List.sum_cons]
    omega

theorem length_arr (q : PName → PName) (l : List JVal) :
    ((JVal.arr l).text q).length = listSize (l.map fun x => (x.text q).length) := by
  cases l with
  | nil => rfl
  | cons x l =>
    simp only [JVal.text, JVal.elems, List.length_cons, List.length_append, length_elemsTail, List.length_nil, listSize,
      List.map_cons, List.sum_cons, List.length_map]
    omega

theorem length_membersTail (q : PName → PName) (l : List (PName × JVal)) :
    (JVal.membersTail q l).length = (l.map fun x => (q x.1).length + 1 + (x.2.text q).length).sum + l.length := by
  induction l with
  | nil => rfl
  | cons x l ih =>
    obtain ⟨k, v⟩ := x
    simp only [JVal.membersTail, List.length_cons, List.length_append, ih, List.map_cons, List.sum_cons]
    omega

theorem length_obj (q : PName → PName) (l : List (PName × JVal)) :
    ((JVal.obj l).text q).length = listSize (l.map fun x => (q x.1).length + 1 + (x.2.text q).length) := by
  cases l with
  | nil => rfl
  | cons x l =>
    obtain ⟨k, v⟩ := x
    simp only [JVal.text, JVal.members, List.length_cons, List.length_append, length_membersTail, List.length_nil, listSize,
      List.map_cons, List.sum_cons, List.length_map]
    omega

theorem length_intText (v : Int) : (intText v).length = numSize v := by
  simp only [intText, numSize]
  split <;> simp

theorem length_num (q : PName → PName) (v : Int) : ((JVal.num v).text q).length = numSize v := length_intText v

/-- Strings take as many characters as `J` says; names made of letters and digits need no escapes. -/
structure WritesAs (q : PName → PName) (J : Json) : Prop where
  str : ∀ s, (q s).length = J.strSize s
  key : ∀ s : PName, (∀ c ∈ s, c.isAlphanum = true) → (q s).length = s.length + 2

/-- The size computed for a `push` is the length of its text. -/
theorem C79_push (q : PName → PName) (J : Json) (hq : WritesAs q J) (compact : Bool) (p : PushRequest) :
    J.pushSize compact p = ((write compact (pushCodec compact) p).text q).length := by
  have hd : ((JVal.arr (p.ag.data.map .num)).text q).length = listSize (p.ag.data.map numSize) := by
    rw [length_arr, List.map_map]
    congr 1
    exact List.map_congr_left fun v _ => length_num q v
  cases compact
  · have h1 : (q ['n', 'a', 'm', 'e']).length = 6 := hq.key _ (by decide)
    have h2 : (q ['t', 's']).length = 4 := hq.key _ (by decide)
    have h3 : (q ['a', 'v', 'g']).length = 5 := hq.key _ (by decide)
    have h4 : (q ['c', 'o', 'u', 'n', 't']).length = 7 := hq.key _ (by decide)
    have h5 : (q ['p', 'e', 'r', 'c', '5', '0']).length = 8 := hq.key _ (by decide)
    have h6 : (q ['p', 'e', 'r', 'c', '8', '0']).length = 8 := hq.key _ (by decide)
    have h7 : (q ['p', 'e', 'r', 'c', '9', '5']).length = 8 := hq.key _ (by decide)
    have h8 : (q ['p', 'e', 'r', 'c', '9', '9']).length = 8 := hq.key _ (by decide)
    have h9 : (q ['p', 'e', 'r', 'c', '1', '0', '0']).length = 9 := hq.key _ (by decide)
    have h10 : (q ['l', 'o', 's', 's', 'y']).length = 7 := hq.key _ (by decide)
    have h11 : (q ['m', 'i', 'n']).length = 5 := hq.key _ (by decide)
    have h12 : (q ['m', 'a', 'x']).length = 5 := hq.key _ (by decide)
    have h13 : (q ['d', 'a', 't', 'a']).length = 6 := hq.key _ (by decide)
    show _ = ((JVal.obj (pushFields.map fun f => (f.key, f.get p))).text q).length
    rw [length_obj]
    simp only [pushFields, List.map_cons, List.map_nil, strField, intField, natField, intsField, hd, h1, h2, h3, h4,
      h5, h6, h7, h8, h9, h10, h11, h12, h13]
    simp only [Json.pushSize, Json.restSize, pushKeys, AggData.nums, JVal.text, length_intText, hq.str, List.map_cons, List.map_nil,
      List.sum_cons, List.sum_nil, List.length_cons, List.length_nil, List.cons_append, List.nil_append, Bool.false_eq_true, if_false,
      listSize.eq_1 (_ :: _)]
    omega
  · show _ = ((JVal.arr (pushElems.map fun f => f.get p)).text q).length
    rw [length_arr]
    simp only [pushElems, List.map_cons, List.map_nil, strField, intField, natField, intsField, hd]
    simp only [Json.pushSize, Json.restSize, AggData.nums, JVal.text, length_intText, hq.str, List.map_cons, List.map_nil,
      List.sum_cons, List.sum_nil, List.length_cons, List.length_nil, List.cons_append, List.nil_append, if_true,
      listSize.eq_1 (_ :: _)]
    omega

/-- The size computed for a `multi_push` is the length of its text. -/
theorem C79_multi (q : PName → PName) (J : Json) (hq : WritesAs q J) (compact : Bool) (m : MultiPush) :
    J.multiSize compact m = ((write compact (multiCodec compact) m).text q).length := by
  have hl : ((JVal.arr (m.legend.map .str)).text q).length = listSize (m.legend.map J.strSize) := by
    rw [length_arr, List.map_map]
    congr 1
    exact List.map_congr_left fun v _ => hq.str v
  have hd : ((JVal.arr (m.data.map (write compact (pushCodec compact)))).text q).length = listSize (m.data.map (J.pushSize compact)) := by
    rw [length_arr, List.map_map]
    congr 1
    exact List.map_congr_left fun v _ => (C79_push q J hq compact v).symm
  cases compact
  · have h1 : (q ['s', 'e', 'p']).length = 5 := hq.key _ (by decide)
    have h2 : (q ['l', 'e', 'g', 'e', 'n', 'd']).length = 8 := hq.key _ (by decide)
    have h3 : (q ['d', 'a', 't', 'a']).length = 6 := hq.key _ (by decide)
    show _ = ((JVal.obj ((multiCodec false).map fun f => (f.key, f.get m))).text q).length
    rw [length_obj]
    simp only [multiCodec, List.map_cons, List.map_nil, strField, strsField, hl, hd, h1, h2, h3]
    simp only [Json.multiSize, JVal.text, hq.str, Bool.false_eq_true, if_false]
    simp only [listSize, List.sum_cons, List.sum_nil, List.length_cons, List.length_nil]
    omega
  · show _ = ((JVal.arr ((multiCodec true).map fun f => f.get m)).text q).length
    rw [length_arr]
    simp only [multiCodec, List.map_cons, List.map_nil, strField, strsField, hl, hd]
    simp only [Json.multiSize, JVal.text, hq.str, if_true]
    simp only [listSize, List.sum_cons, List.sum_nil, List.length_cons, List.length_nil]
    omega

/-- The writer of the examples is as assumed. -/
theorem quote_writes : WritesAs quote exJson := by
  refine ⟨length_quote, fun s hs => ?_⟩
  rw [length_quote]
  unfold exJson
  simp only
  induction s with
  | nil => rfl
  | cons c s ih =>
    have h1 : charSize c = 1 := by
      have := hs c (by simp)
      unfold charSize
      have g1 : ¬ (c = '"' ∨ c = '\\') := by rintro (rfl | rfl) <;> (revert this; decide)
      have g2 : ¬ c.toNat < 32 := by
        intro h
        have : ∀ n : Fin 32, (Char.ofNat n.1).isAlphanum = false := by decide
        have := this ⟨c.toNat, h⟩
        rw [Char.ofNat_toNat] at this
        simp_all
      rw [if_neg g1, if_neg g2]
    have := ih fun c hc => hs c (List.mem_cons_of_mem _ hc)
    simp only [List.length_cons, List.map_cons, List.sum_cons, h1]
    omega

example : exJson.pushSize false exPush = 139 ∧ ((write false pushFields exPush).text quote).length = 139 := by decide +kernel

end Wrtstat
