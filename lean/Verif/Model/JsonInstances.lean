/-
A concrete writer of strings and reader of JSON texts, for the examples and to show that the assumptions about wjson
can be met.
-/
import Verif.Model.JsonCodec
import Verif.Model.PackerInstances

namespace Wrtstat

set_option autoImplicit false

/-- A hexadecimal digit. -/
def hexChar (n : Nat) : Char := Nat.digitChar n

/-- Its value. -/
def hexVal (c : Char) : Nat := if c.isDigit then c.toNat - 48 else c.toNat - 87

/-- A character in a JSON string. -/
def escChar (c : Char) : PName :=
  if c = '"' ∨ c = '\\' then ['\\', c]
  else if c.toNat < 32 then ['\\', 'u', '0', '0', hexChar (c.toNat / 16), hexChar (c.toNat % 16)]
  else [c]

/-- A string in JSON. -/
def quote (s : PName) : PName := '"' :: (s.flatMap escChar ++ ['"'])

/-- Reads a string up to the closing quote. -/
def readStr : PName → Option (PName × PName)
  | [] => none
  | c :: s =>
    if c = '"' then some ([], s)
    else if c = '\\' then
      match s with
      | [] => none
      | d :: s =>
        if d = 'u' then
          match s with
          | _ :: _ :: a :: b :: s => (readStr s).map fun (x, r) => (Char.ofNat (hexVal a * 16 + hexVal b) :: x, r)
          | _ => none
        else (readStr s).map fun (x, r) => (d :: x, r)
    else (readStr s).map fun (x, r) => (c :: x, r)

/-- Reads digits as long as there are any. -/
def readNat : Nat → PName → Nat × PName
  | v, [] => (v, [])
  | v, c :: s => if c.isDigit then readNat (v * 10 + (c.toNat - 48)) s else (v, c :: s)

mutual

/-- Reads a value. -/
def parseVal : Nat → PName → Option (JVal × PName)
  | 0, _ => none
  | _ + 1, [] => none
  | n + 1, c :: s =>
    if c = '"' then (readStr s).map fun (x, r) => (.str x, r)
    else if c = '[' then
      if s.head? = some ']' then some (.arr [], s.tail) else (parseElems n s).map fun (l, r) => (.arr l, r)
    else if c = '{' then
      if s.head? = some '}' then some (.obj [], s.tail) else (parseMembers n s).map fun (l, r) => (.obj l, r)
    else if c = 't' then some (.bool true, s.drop 3)
    else if c = 'f' then some (.bool false, s.drop 4)
    else if c = '-' then some (.num (-((readNat 0 s).1 : Int)), (readNat 0 s).2)
    else if c.isDigit then some (.num (readNat 0 (c :: s)).1, (readNat 0 (c :: s)).2)
    else none

/-- Reads the elements of an array up to the bracket. -/
def parseElems : Nat → PName → Option (List JVal × PName)
  | 0, _ => none
  | n + 1, s =>
    match parseVal n s with
    | none => none
    | some (x, s) =>
      match s with
      | [] => none
      | c :: s =>
        if c = ',' then (parseElems n s).map fun (l, r) => (x :: l, r)
        else if c = ']' then some ([x], s)
        else none

/-- Reads the members of an object up to the brace. -/
def parseMembers : Nat → PName → Option (List (PName × JVal) × PName)
  | 0, _ => none
  | n + 1, s =>
    if s.head? = some '"' then
      match readStr s.tail with
      | none => none
      | some (k, s) =>
        if s.head? = some ':' then
          match parseVal n s.tail with
          | none => none
          | some (x, s) =>
            match s with
            | [] => none
            | c :: s =>
              if c = ',' then (parseMembers n s).map fun (l, r) => ((k, x) :: l, r)
              else if c = '}' then some ([(k, x)], s)
              else none
        else none
    else none

end

/-- Reads a text. -/
def parseText (s : PName) : Option JVal :=
  match parseVal s.length s with
  | some (j, []) => some j
  | _ => none

/-! ### Strings and numbers -/

theorem readStr_esc (c : Char) (t : PName) : readStr (escChar c ++ t) = (readStr t).map fun (x, r) => (c :: x, r) := by
  unfold escChar
  by_cases h1 : c = '"' ∨ c = '\\'
  · rw [if_pos h1]
    rcases h1 with rfl | rfl
    · simp only [List.cons_append, List.nil_append]; rw [readStr.eq_def]; simp
    · simp only [List.cons_append, List.nil_append]; rw [readStr.eq_def]; simp
  · rw [if_neg h1]
    by_cases h2 : c.toNat < 32
    · rw [if_pos h2]
      have hc : ∀ n : Fin 32, hexVal (hexChar (n.1 / 16)) * 16 + hexVal (hexChar (n.1 % 16)) = n.1 := by decide
      have hc := hc ⟨c.toNat, h2⟩
      simp only at hc
      have he : Char.ofNat (hexVal (hexChar (c.toNat / 16)) * 16 + hexVal (hexChar (c.toNat % 16))) = c := by
        rw [hc, Char.ofNat_toNat]
      simp only [List.cons_append, List.nil_append, readStr]
      simp [he]
    · rw [if_neg h2]
      push Not at h1
      simp only [List.cons_append, List.nil_append]; rw [readStr.eq_def]; simp [h1.1, h1.2]

theorem readStr_quote (s t : PName) : readStr (s.flatMap escChar ++ '"' :: t) = some (s, t) := by
  induction s with
  | nil => simp only [List.flatMap_nil, List.nil_append]; rw [readStr.eq_def]; simp
  | cons c s ih => rw [List.flatMap_cons, List.append_assoc, readStr_esc, ih]; rfl

theorem length_quote (s : PName) : (quote s).length = exJson.strSize s := by
  unfold quote exJson
  simp only [List.length_cons, List.length_append, List.length_nil, List.length_flatMap]
  suffices h : (List.map (fun c => (escChar c).length) s).sum = (List.map charSize s).sum by rw [h]; omega
  congr 1
  apply List.map_congr_left
  intro c _
  unfold escChar charSize
  split
  · rfl
  · split <;> rfl

theorem readNat_decimal (n : Nat) (t : PName) (ht : ∀ c, t.head? = some c → c.isDigit = false) :
    readNat 0 (decimal n ++ t) = (n, t) := by
  suffices h : ∀ n, ∀ t, readNat 0 (decimal n ++ t) = readNat n t by
    rw [h n]
    cases t with
    | nil => rfl
    | cons c t =>
      have := ht c rfl
      simp [readNat, this]
  intro n
  induction n using Nat.strongRecOn with
  | _ n ih =>
    intro t
    unfold decimal
    by_cases h : n < 10
    · rw [Nat.toDigits_of_lt_base h]
      simp only [List.singleton_append, readNat, Nat.isDigit_digitChar, h, decide_true, if_true,
        Nat.toNat_digitChar_sub_48_of_lt_ten h]
      congr 1
      omega
    · rw [Nat.toDigits_of_base_le (by omega) (by omega), List.append_assoc]
      have := ih (n / 10) (by omega) ([(n % 10).digitChar] ++ t)
      unfold decimal at this
      rw [this]
      have h10 : n % 10 < 10 := by omega
      simp only [List.singleton_append, readNat, Nat.isDigit_digitChar, h10, decide_true, if_true,
        Nat.toNat_digitChar_sub_48_of_lt_ten h10]
      congr 1
      omega

/-! ### Values -/

theorem digit_ne {c : Char} (h : c.isDigit = true) :
    c ≠ '"' ∧ c ≠ '[' ∧ c ≠ '{' ∧ c ≠ 't' ∧ c ≠ 'f' ∧ c ≠ '-' ∧ c ≠ ']' := by
  refine ⟨?_, ?_, ?_, ?_, ?_, ?_, ?_⟩ <;> (rintro rfl; revert h; decide)

theorem text_head (j : JVal) : ∃ c t, j.text quote = c :: t ∧ c ≠ ']' := by
  cases j with
  | num v =>
    simp only [JVal.text, intText]
    split
    · exact ⟨_, _, rfl, by decide⟩
    · cases h : decimal v.natAbs with
      | nil => exact absurd h (decimal_ne_nil _)
      | cons c t => exact ⟨c, t, rfl, (digit_ne (decimal_digit _ c (by rw [h]; simp))).2.2.2.2.2.2⟩
  | bool b => cases b <;> exact ⟨_, _, rfl, by decide⟩
  | str s => exact ⟨_, _, rfl, by decide⟩
  | arr l => exact ⟨_, _, rfl, by decide⟩
  | obj l => exact ⟨_, _, rfl, by decide⟩

theorem elemsTail_cons (q : PName → PName) (x : JVal) (l : List JVal) :
    JVal.elemsTail q (x :: l) = ',' :: JVal.elems q (x :: l) := by
  simp [JVal.elemsTail, JVal.elems]

theorem membersTail_cons (q : PName → PName) (x : PName × JVal) (l : List (PName × JVal)) :
    JVal.membersTail q (x :: l) = ',' :: JVal.members q (x :: l) := by
  simp [JVal.membersTail, JVal.members]

theorem parse_text (n : Nat) :
    (∀ (j : JVal) (t : PName), (∀ c, t.head? = some c → c.isDigit = false) → (j.text quote).length ≤ n →
      parseVal n (j.text quote ++ t) = some (j, t)) ∧
    (∀ (x : JVal) (l : List JVal) (t : PName), (JVal.elems quote (x :: l)).length + 1 ≤ n →
      parseElems n (JVal.elems quote (x :: l) ++ ']' :: t) = some (x :: l, t)) ∧
    (∀ (x : PName × JVal) (l : List (PName × JVal)) (t : PName), (JVal.members quote (x :: l)).length + 1 ≤ n →
      parseMembers n (JVal.members quote (x :: l) ++ '}' :: t) = some (x :: l, t)) := by
  induction n with
  | zero =>
    refine ⟨fun j t _ h => ?_, fun x l t h => absurd h (by omega), fun x l t h => absurd h (by omega)⟩
    obtain ⟨c, s, e, -⟩ := text_head j
    rw [e] at h
    simp at h
  | succ n ih =>
    obtain ⟨ih1, ih2, ih3⟩ := ih
    refine ⟨?_, ?_, ?_⟩
    · intro j t ht hn
      cases j with
      | num v =>
        simp only [JVal.text, intText]
        split
        · rename_i hv
          simp only [List.cons_append, parseVal, Char.reduceEq, if_false, if_true]
          rw [readNat_decimal _ _ ht]
          simp only [Option.some.injEq, Prod.mk.injEq, JVal.num.injEq, and_true]
          omega
        · rename_i hv
          cases h : decimal v.natAbs with
          | nil => exact absurd h (decimal_ne_nil _)
          | cons c s =>
            have hd := decimal_digit _ c (by rw [h]; simp)
            obtain ⟨h1, h2, h3, h4, h5, h6, -⟩ := digit_ne hd
            rw [List.cons_append]
            simp only [parseVal, h1, h2, h3, h4, h5, h6, hd, if_false, if_true]
            rw [← List.cons_append, ← h, readNat_decimal _ _ ht]
            simp only [Option.some.injEq, Prod.mk.injEq, JVal.num.injEq, and_true]
            omega
      | bool b => cases b <;> simp [JVal.text, parseVal]
      | str s =>
        simp only [JVal.text, quote, List.cons_append, parseVal, if_true, List.append_assoc, List.nil_append]
        rw [readStr_quote]
        rfl
      | arr l =>
        simp only [JVal.text, List.length_cons, List.length_append, List.length_nil] at hn
        simp only [JVal.text, List.cons_append, parseVal, Char.reduceEq, if_false, if_true, List.append_assoc,
          List.nil_append]
        cases l with
        | nil => simp [JVal.elems]
        | cons x l =>
          rw [if_neg, ih2 x l t (by omega)]
          · rfl
          · obtain ⟨c, s, e, hc⟩ := text_head x
            simp only [JVal.elems, e, List.cons_append, List.head?_cons, Option.some.injEq]
            exact hc
      | obj l =>
        simp only [JVal.text, List.length_cons, List.length_append, List.length_nil] at hn
        simp only [JVal.text, List.cons_append, parseVal, Char.reduceEq, if_false, if_true, List.append_assoc,
          List.nil_append]
        cases l with
        | nil => simp [JVal.members]
        | cons x l =>
          rw [if_neg, ih3 x l t (by omega)]
          · rfl
          · obtain ⟨k, v⟩ := x
            simp [JVal.members, quote]
    · intro x l t hn
      simp only [JVal.elems, List.length_append] at hn
      simp only [JVal.elems, parseElems, List.append_assoc]
      cases l with
      | nil =>
        rw [ih1 x _ (by simp [JVal.elemsTail]) (by omega)]
        simp [JVal.elemsTail]
      | cons y l =>
        rw [elemsTail_cons] at hn ⊢
        simp only [List.length_cons] at hn
        rw [ih1 x _ (by simp) (by omega)]
        simp only [List.cons_append, if_true]
        rw [ih2 y l t (by omega)]
        rfl
    · intro x l t hn
      obtain ⟨k, v⟩ := x
      simp only [JVal.members, List.length_append, List.length_cons] at hn
      simp only [JVal.members, parseMembers, List.append_assoc, quote, List.cons_append, List.head?_cons, List.tail_cons,
        if_true, List.nil_append]
      rw [readStr_quote]
      simp only [List.head?_cons, List.tail_cons, if_true]
      cases l with
      | nil =>
        rw [ih1 v _ (by simp [JVal.membersTail]) (by omega)]
        simp [JVal.membersTail]
      | cons y l =>
        rw [membersTail_cons] at hn ⊢
        simp only [List.length_cons] at hn
        rw [ih1 v _ (by simp) (by omega)]
        simp only [List.cons_append, if_true]
        rw [ih3 y l t (by omega)]
        rfl

/-- A text is read back as the value it was made of. -/
theorem parseText_text (j : JVal) : parseText (j.text quote) = some j := by
  have := (parse_text (j.text quote).length).1 j [] (by simp) (Nat.le_refl _)
  rw [List.append_nil] at this
  unfold parseText
  rw [this]

/-- The texts of the examples. -/
def exText : JsonText where
  q := quote
  parse := parseText
  parse_text := parseText_text

/-- Skips blanks. -/
def skipBlanks : PName → PName
  | [] => []
  | c :: s => if c = ' ' then skipBlanks s else c :: s

/-- An environment for `load_options`: one file; a text that is no JSON value, or not an object, has no members. -/
def exLoad (path content : PName) : LoadEnv where
  q := quote
  parseSpace s := (skipBlanks s, true)
  isObject s := s.head? == some '{'
  parse s := match parseText s with
    | some (.obj l) => (l, true)
    | _ => ([], false)
  trace s := s
  file s := if s = path then some content else none
  strerror s := s

end Wrtstat
