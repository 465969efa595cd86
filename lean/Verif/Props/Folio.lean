/-
C164: the registry described in full: a folio of leaves, one for every name, kept by hand.
-/
import Verif.Props.Desk
import Verif.Lemmas.Accessors

namespace Wrtstat

set_option autoImplicit false

open Aggregator

namespace Registry

/-- The leaf of a name: its id, which of the aggregators ever created it is, and its books. -/
structure Leaf where
  id : Nat
  ref : Nat
  book : Fullbook
deriving DecidableEq

/-- The folio: the leaves, the ids that were given back, the last new id, the number of leaves ever opened, whether new aggregators are enabled, and
whether there is an initializer. -/
structure Folio where
  leaf : Name → Option Leaf := fun _ => none
  freed : List Nat := []
  last : Nat
  next : Nat := 0
  en : Bool := true
  init : Bool

/-- The folio of a registry without names. -/
def Folio.fresh (opt : RegistryOpts) : Folio := { last := opt.idInit, init := opt.hasInit }

/-- The id of the next leaf: one that was given back, if there is one. -/
def Folio.entry (F : Folio) (opt : RegistryOpts) (q : Ask) : Nat := (F.freed[q.pick % F.freed.length]?).getD (F.last + opt.idStep)

/-- The books on a leaf that is opened now. -/
def Folio.opening (F : Folio) (opt : RegistryOpts) (q : Ask) (now : Int) : Fullbook :=
  let B : Fullbook := { begins := Multi.firstPage opt.toAggregatorOpts q.clk q.rand now }
  if F.en = false then { B with en := false }
  else match F.init, q.ini with
    | true, some rd => AOp.fullbook opt.toAggregatorOpts B (.add q.iclk1 q.iclk2 rd.ts (.reduced rd))
    | _, _ => B

/-- A leaf is opened for a name that has none. -/
def Folio.open (F : Folio) (opt : RegistryOpts) (q : Ask) (name : Name) (now : Int) : Folio :=
  if name = [] ∨ (F.leaf name).isSome then F
  else
    { F with
      leaf := fun nm => if nm = name then some ⟨F.entry opt q, F.next, F.opening opt q now⟩ else F.leaf nm
      freed := F.freed.erase (F.entry opt q)
      last := if F.freed = [] then F.entry opt q else F.last
      next := F.next + 1 }

/-- What an operation says to the leaf of a name. -/
def RegOp.told (nm : Name) (L : Leaf) : RegOp → List AOp
  | .addId id c1 c2 now v count => if L.id = id then [.add c1 c2 now (.one v count)] else []
  | .addData _ n c1 c2 rd => if nm = n then [.add c1 c2 rd.ts (.reduced rd)] else []
  | .pop id => if L.id = id then [.pop] else []
  | .forcePop id => if L.id = id then [.forcePop] else []
  | .popAll force clk => [.separate (clk L.id) 0 false force, if force then .forcePop else .pop]
  | .call p c1 c2 ts x => if L.ref = p.ref ∧ p.p.token = true then [.push c1 c2 ts x p.p.handler] else []
  | .enable v => [.enable v]
  | .direct id op => if L.id = id then [op] else []
  | _ => []

def Folio.tell (F : Folio) (opt : RegistryOpts) (op : RegOp) : Folio :=
  { F with leaf := fun nm => (F.leaf nm).map fun L =>
      { L with book := (op.told nm L).foldl (AOp.fullbook opt.toAggregatorOpts) L.book } }

/-- The folio after an operation. -/
def Folio.after (F : Folio) (opt : RegistryOpts) : RegOp → Folio
  | .create q n now => F.open opt q n now
  | .pusherName q n now _ => F.open opt q n now
  | .addData q n c1 c2 rd => (F.open opt q n rd.ts).tell opt (.addData q n c1 c2 rd)
  | .setInit v => { F with init := v }
  | .enable v => { F.tell opt (.enable v) with en := v }
  | .del n =>
    match F.leaf n with
    | none => F
    | some L => { F with leaf := fun nm => if nm = n then none else F.leaf nm, freed := L.id :: F.freed }
  | .getName _ => F
  | .pusherId _ _ => F
  | op => F.tell opt op

/-- The folio after a history. -/
def folio (opt : RegistryOpts) (ops : List RegOp) : Folio := ops.foldl (fun F op => F.after opt op) (.fresh opt)

/-- The position of an id. -/
abbrev placeOf (opt : RegistryOpts) (id : Nat) : Nat := posOf opt.idStep (opt.idInit % opt.idStep) id

/-- The folio agrees with the registry, of which `R` was received. -/
structure Filed (env : Env) (opt : RegistryOpts) (n : Nat) (F : Folio) (r : Registry) (R : List (Nat × AggData)) : Prop where
  inv : RInv opt n r
  recKey : ∀ x ∈ R, x.1 < r.nextRef
  entry : ∀ nm id, (nm, id) ∈ r.dict.dict ↔ ∃ L, F.leaf nm = some L ∧ L.id = id
  leaf : ∀ nm L c, F.leaf nm = some L → r.agarr[placeOf opt L.id]? = some (some c) →
    L.ref = c.ref ∧ FBooked env opt.toAggregatorOpts L.book ⟨c.agg, forRef c.ref R, []⟩
  freed : F.freed = r.dict.free
  last : F.last = r.dict.counter
  next : F.next = r.nextRef
  en : F.en = r.enabled
  init : F.init = r.hasInit

theorem filed_new (env : Env) (opt : RegistryOpts) : Filed env opt 0 (.fresh opt) (Registry.new opt) [] :=
  ⟨rinv_new opt, by simp, by simp [Registry.new, Folio.fresh], by simp [Folio.fresh], rfl, rfl, rfl, rfl, rfl⟩

theorem fbooked_acc {env : Env} {opt : AggregatorOpts} {D : Fullbook} {a : Aggregator} {R : List AggData} {acc : List (Int × AddArg)}
    (acc' : List (Int × AddArg)) (B : FBooked env opt D ⟨a, R, acc⟩) : FBooked env opt D ⟨a, R, acc'⟩ :=
  ⟨B.page, B.out, B.raw, B.tray, B.en, B.queue, B.made⟩

/-- The books after the operations addressed to an aggregator. -/
theorem fbooked_trans {env : Env} {opt : AggregatorOpts} (hs : 0 < opt.step) {D : Fullbook} {a a' : Aggregator} {R out : List AggData}
    {ops : List AOp} (B : FBooked env opt D ⟨a, R, []⟩) (t : Trans env a ops a' out) :
    FBooked env opt (ops.foldl (AOp.fullbook opt) D) ⟨a', R ++ out, []⟩ := by
  obtain ⟨o, h, rfl, rfl⟩ := t
  have h' := execAll_frame env a R [] ops
  rw [h] at h'
  exact fbooked_acc [] (fbooked_execAll hs ops B h')

variable {env : Env} {opt : RegistryOpts} {n : Nat} {F : Folio} {r r' : Registry} {R : List (Nat × AggData)}

theorem Filed.mono (H : Filed env opt n F r R) : Filed env opt (n + 1) F r R :=
  ⟨H.inv.mono (by omega), H.recKey, H.entry, H.leaf, H.freed, H.last, H.next, H.en, H.init⟩

/-- The aggregator of a leaf. -/
theorem Filed.cell (H : Filed env opt n F r R) (hr : Room opt n) {nm : Name} {L : Leaf} (hL : F.leaf nm = some L) :
    ∃ c, (nm, L.id) ∈ r.dict.dict ∧ r.cellOf nm = some c ∧ r.cellAt L.id = some c ∧ r.getAggregator L.id = .ok (some c) ∧
      r.agarr[placeOf opt L.id]? = some (some c) ∧ L.ref = c.ref ∧
      FBooked env opt.toAggregatorOpts L.book ⟨c.agg, forRef c.ref R, []⟩ := by
  have hm := (H.entry nm L.id).2 ⟨L, hL, rfl⟩
  obtain ⟨c, h1, h2, h3, h4⟩ := H.inv.cellOf_live hr hm
  obtain ⟨h5, h6⟩ := H.leaf nm L c hL h4
  exact ⟨c, hm, h1, h2, h3, h4, h5, h6⟩

/-- An operation that creates and removes nothing. -/
theorem filed_seff (hs : 0 < opt.step) (hr : Room opt n) (H : Filed env opt n F r R) {ask : List (Nat × AOp)} {del : List (Nat × AggData)}
    {op : RegOp} (E : SEff env r r' ask del) (he : r'.enabled = r.enabled) (hh : r'.hasInit = r.hasInit)
    (hd : ∀ x ∈ del, x.1 < r.nextRef)
    (ha : ∀ nm L c, F.leaf nm = some L → r.agarr[placeOf opt L.id]? = some (some c) → L.ref = c.ref → forRef c.ref ask = op.told nm L) :
    Filed env opt n (F.tell opt op) r' (R ++ del) := by
  refine ⟨E.inv H.inv, ?_, ?_, ?_, ?_, ?_, ?_, ?_, ?_⟩
  · intro x hx
    rw [E.next]
    rcases List.mem_append.1 hx with hx | hx
    · exact H.recKey x hx
    · exact hd x hx
  · intro nm id
    rw [E.dict, H.entry]
    simp only [Folio.tell]
    cases F.leaf nm with
    | none => simp
    | some L => simp
  · intro nm L' c' hL' hc'
    simp only [Folio.tell, Option.map_eq_some_iff] at hL'
    obtain ⟨L, hL, rfl⟩ := hL'
    obtain ⟨c, -, -, -, -, hc, href, B⟩ := H.cell hr hL
    obtain ⟨c1, h1, h2, t⟩ := E.cell _ c hc
    simp only at hc'
    rw [h1] at hc'
    cases hc'
    refine ⟨href.trans h2.symm, ?_⟩
    rw [ha nm L c hL hc href] at t
    rw [h2, forRef_append]
    exact fbooked_trans hs B t
  · rw [E.dict]; exact H.freed
  · rw [E.dict]; exact H.last
  · rw [E.next]; exact H.next
  · rw [he]; exact H.en
  · rw [hh]; exact H.init

/-- Two leaves with one id are one. -/
theorem Filed.same (H : Filed env opt n F r R) {nm nm' : Name} {L L' : Leaf} (h : F.leaf nm = some L) (h' : F.leaf nm' = some L')
    (he : L.id = L'.id) : nm = nm' ∧ L = L' := by
  have h1 := (H.entry nm L.id).2 ⟨L, h, rfl⟩
  have h2 := (H.entry nm' L.id).2 ⟨L', h', he.symm⟩
  have e := H.inv.id_eq h1 h2
  subst e
  rw [h] at h'
  exact ⟨rfl, Option.some.inj h'⟩

/-- An id is asked exactly when a leaf has it. -/
theorem Filed.at (H : Filed env opt n F r R) (hr : Room opt n) {id : Nat} {c : Cell} (h : r.cellAt id = some c) :
    ∃ nm L, F.leaf nm = some L ∧ L.id = id := by
  obtain ⟨nm, hm, -, -⟩ := H.inv.cellAt_some hr h
  obtain ⟨L, h1, h2⟩ := (H.entry nm id).1 hm
  exact ⟨nm, L, h1, h2⟩

theorem Filed.toId (H : Filed env opt n F r R) (hr : Room opt n) {nm : Name} {L : Leaf} {c : Cell} (hL : F.leaf nm = some L)
    (hc : r.agarr[placeOf opt L.id]? = some (some c)) {α : Type} (id : Nat) (l : List α) :
    forRef c.ref ((r.cellAt id).toList.flatMap fun c => l.map fun x => (c.ref, x)) = if L.id = id then l else [] := by
  obtain ⟨c0, hm, -, k2, -, k4, -, -⟩ := H.cell hr hL
  rw [hc] at k4
  cases k4
  by_cases he : L.id = id
  · subst he
    rw [if_pos rfl, k2]
    simp only [Option.toList_some, List.flatMap_cons, List.flatMap_nil, List.append_nil]
    exact forRef_self _ _
  · rw [if_neg he]
    cases hca : r.cellAt id with
    | none => rfl
    | some c' =>
      simp only [Option.toList_some, List.flatMap_cons, List.flatMap_nil, List.append_nil]
      apply forRef_other
      intro hre
      obtain ⟨nm', hm', -, k⟩ := H.inv.cellAt_some hr hca
      have h1 := H.inv.refs _ _ _ _ k hc hre
      exact he (posOf_inj (H.inv.id_form hm').1 (H.inv.id_form hm).1 h1).symm

/-- A leaf is opened. -/
theorem filed_open (hs : 0 < opt.step) (hr : Room opt n) (H : Filed env opt n F r R) {q : Ask} {name : Name} {now : Int} {id : Nat}
    (h : r.createAggregator env q name now = .ok (id, r')) :
    Filed env opt (n + 1) (F.open opt q name now) r' R ∧
      id = if name = [] then badId else ((F.leaf name).map Leaf.id).getD (F.entry opt q) := by
  rcases create_cases H.inv hr h with ⟨h0, rfl, rfl⟩ | ⟨hm, rfl⟩ | ⟨h0, hn, hc, hi'⟩
  · rw [if_pos h0, Folio.open, if_pos (.inl h0)]
    exact ⟨H.mono, rfl⟩
  · obtain ⟨L, hL, rfl⟩ := (H.entry _ _).1 hm
    rw [if_neg (H.inv.nonempty _ hm), hL, Folio.open, if_pos (.inr (by rw [hL]; rfl))]
    exact ⟨H.mono, rfl⟩
  · have hnone : F.leaf name = none := by
      cases hl : F.leaf name with
      | none => rfl
      | some L => exact absurd (List.mem_map.2 ⟨_, (H.entry name L.id).2 ⟨L, hl, rfl⟩, rfl⟩) hn
    have hb := H.inv.bound hr
    have hp := hr.1
    -- the id, and what is left of the ids
    have key : id = F.entry opt q ∧ r'.dict.free = F.freed.erase (F.entry opt q) ∧
        r'.dict.counter = if F.freed = [] then F.entry opt q else F.last := by
      have hcr : id = (r.dict.createId q.pick name).1 ∧ r'.dict = (r.dict.createId q.pick name).2 := by
        unfold createAggregator at h
        rw [if_neg h0] at h
        generalize r.dict.createId q.pick name = x at *
        obtain ⟨id', d'⟩ := x
        simp only at h
        obtain ⟨p, _, h2⟩ := bind_inv h
        split at h2
        · cases h2; exact ⟨rfl, rfl⟩
        · obtain ⟨a, _, h3⟩ := bind_inv h2
          cases h3; exact ⟨rfl, rfl⟩
      rw [hcr.2, hcr.1]
      unfold Dict.createId Folio.entry
      rw [lookup_none.2 hn, H.freed, H.last]
      cases hf : r.dict.free[q.pick % r.dict.free.length]? with
      | none =>
        have hnil : r.dict.free = [] := by
          by_contra hne
          have hl : 0 < r.dict.free.length := List.length_pos_iff.2 hne
          rw [List.getElem?_eq_none_iff] at hf
          have := Nat.mod_lt q.pick hl
          omega
        have hid : (r.dict.counter + r.dict.step) % idMod = r.dict.counter + opt.idStep := by
          rw [H.inv.step, Nat.mod_eq_of_lt (by omega)]
        simp only [hnil, hid, Option.getD_none, List.erase_nil, if_true, and_self]
      | some id0 =>
        have hne : r.dict.free ≠ [] := by
          intro he; rw [he] at hf; simp at hf
        simp only [Option.getD_some, hne, if_false, and_self]
    obtain ⟨k1, k2, k3⟩ := key
    rw [if_neg h0, hnone, Folio.open, if_neg (by rw [hnone]; simp [h0])]
    refine ⟨⟨hi', ?_, ?_, ?_, k2.symm, k3.symm, by rw [hc.next, ← H.next], by rw [hc.enabled]; exact H.en, by rw [hc.hasInit]; exact H.init⟩, k1⟩
    · intro x hx
      have := H.recKey x hx
      rw [hc.next]; omega
    · intro nm i
      rw [hc.dict, List.mem_cons, H.entry]
      simp only [Prod.mk.injEq]
      by_cases he : nm = name
      · subst he
        rw [hnone, k1]
        simp [eq_comm]
      · simp [he]
    · intro nm L c hL hp'
      simp only at hL
      by_cases he : nm = name
      · subst he
        rw [if_pos rfl] at hL
        cases hL
        simp only at hp' ⊢
        obtain ⟨a0, a, g1, g2, g3⟩ := hc.cell
        rw [← k1] at hp'
        rw [g3] at hp'
        cases hp'
        refine ⟨H.next, ?_⟩
        simp only
        rw [forRef_key (fun x hx => by have := H.recKey x hx; omega)]
        have S := Single.shows_new (env := env) hs g1
        have F0 := fbooked_fresh hs (Fresh.new (env := env) g1)
        have hen : a0.enabled = true := by
          unfold Aggregator.new at g1
          obtain ⟨s, _, g⟩ := bind_inv g1
          cases g; rfl
        have hbeg : a0.sep.currentTime = Multi.firstPage opt.toAggregatorOpts q.clk q.rand now := by
          have b1 := S.page.begins
          have b2 := S.page.step
          simp only [Separator.currentTime, b1, b2, Single.pageOf]
          omega
        rw [hbeg, hen] at F0
        have B := fbooked_trans hs F0 g2
        have eo : (r.birth q).foldl (AOp.fullbook opt.toAggregatorOpts)
            { begins := Multi.firstPage opt.toAggregatorOpts q.clk q.rand now, en := true } = F.opening opt q now := by
          unfold birth Folio.opening
          rw [H.en, H.init]
          cases r.enabled with
          | false => rfl
          | true =>
            cases r.hasInit with
            | false => rfl
            | true => cases q.ini <;> rfl
        rw [eo] at B
        exact B
      · rw [if_neg he] at hL
        have hm := (H.entry nm L.id).2 ⟨L, hL, rfl⟩
        refine H.leaf nm L c hL ((hc.others _ _ ?_).1 hp')
        intro hpos
        obtain ⟨c1, h1⟩ := H.inv.live nm L.id hm
        have hpos' : posOf opt.idStep (opt.idInit % opt.idStep) L.id = posOf opt.idStep (opt.idInit % opt.idStep) id := hpos
        rw [hpos'] at h1
        exact hc.empty c1 h1

/-! ### The answers -/

/-- An event is answered yes if the books are closed, or the event is not before the page that is open once the page is turned. -/
def _root_.Wrtstat.Aggregator.Fullbook.takes (opt : AggregatorOpts) (D : Fullbook) (clk1 clk2 ts : Int) : Bool :=
  let T := align opt.step (meant opt.resolution clk1 ts)
  D.en = false ∨ (D.toDaybook.turn opt.step (align opt.step (meant opt.resolution clk2 T))).begins ≤ T

/-- The slips that a leaf hands over when told `ops`. -/
def Leaf.slips (opt : RegistryOpts) (L : Leaf) (ops : List AOp) : List Slip :=
  (ops.foldl (AOp.fullbook opt.toAggregatorOpts) { L.book with made := [] }).made

/-- Nobody has the id. -/
def Folio.nobody (F : Folio) (id : Nat) : Prop := ∀ nm L, F.leaf nm = some L → L.id ≠ id

/-- The answer to an operation, by the folio before it. -/
def Folio.Answers (env : Env) (opt : RegistryOpts) (F : Folio) : RegOp → Resp → Prop
  | .create q n _, a => a = .id (if n = [] then badId else ((F.leaf n).map Leaf.id).getD (F.entry opt q))
  | .addId id c1 c2 now _ _, a => ∃ b, a = .bool b ∧
      (b = true ↔ ∃ nm L, F.leaf nm = some L ∧ L.id = id ∧ L.book.takes opt.toAggregatorOpts c1 c2 now = true)
  | .addData q n c1 c2 rd, a => ∃ b, a = .bool b ∧
      (b = true ↔ ∃ L, (F.open opt q n rd.ts).leaf n = some L ∧ L.book.takes opt.toAggregatorOpts c1 c2 rd.ts = true)
  | .pop id, a => ∃ d : Option AggData, a = .record d ∧ (F.nobody id → d = none) ∧
      ∀ nm L, F.leaf nm = some L → L.id = id → Tell env opt.toAggregatorOpts (L.slips opt [.pop]) d.toList
  | .forcePop id, a => ∃ d : Option AggData, a = .record d ∧ (F.nobody id → d = none) ∧
      ∀ nm L, F.leaf nm = some L → L.id = id → Tell env opt.toAggregatorOpts (L.slips opt [.forcePop]) d.toList
  | .popAll force clk, a => ∃ l, a = .records l ∧ (∀ p ∈ l, (F.leaf p.1).isSome = true) ∧
      (l.Pairwise fun p p' => ∀ L L', F.leaf p.1 = some L → F.leaf p'.1 = some L' → L.id < L'.id) ∧
      ∀ nm L, F.leaf nm = some L →
        Tell env opt.toAggregatorOpts (L.slips opt [.separate (clk L.id) 0 false force, if force then .forcePop else .pop])
          ((l.filter fun p => p.1 = nm).map Prod.snd)
  | .getName id, a => ∃ nm, a = .name nm ∧ (F.nobody id → nm = []) ∧ ∀ nm' L, F.leaf nm' = some L → L.id = id → nm = nm'
  | .setInit _, a => a = .unit
  | .pusherId id h, a => ∃ p, a = .pusher p ∧ (F.nobody id → p = none) ∧
      ∀ nm L, F.leaf nm = some L → L.id = id → p = some ⟨L.ref, true, h⟩
  | .pusherName q n now h, a => a = .pusher (((F.open opt q n now).leaf n).map fun L => ⟨L.ref, true, h⟩)
  | .call p c1 c2 ts x, a => ∃ l, a = .handed l ∧ ((∀ nm L, F.leaf nm = some L → L.ref ≠ p.ref) → l = []) ∧
      ∀ nm L, F.leaf nm = some L → L.ref = p.ref →
        Tell env opt.toAggregatorOpts (if p.p.token = true then L.slips opt [.push c1 c2 ts x p.p.handler] else []) l
  | .enable _, a => a = .unit
  | .del _, a => a = .bool false
  | .direct id op, a => ∃ l, a = .handed l ∧ (F.nobody id → l = []) ∧
      ∀ nm L, F.leaf nm = some L → L.id = id → Tell env opt.toAggregatorOpts (L.slips opt [op]) l

theorem tell_trans {a a' : Aggregator} {R' out : List AggData} {ops : List AOp} {L : Leaf} (hs : 0 < opt.step)
    (B : FBooked env opt.toAggregatorOpts L.book ⟨a, R', []⟩) (t : Trans env a ops a' out) :
    Tell env opt.toAggregatorOpts (L.slips opt ops) out := by
  have B' : FBooked env opt.toAggregatorOpts { L.book with made := [] } ⟨a, [], []⟩ :=
    ⟨B.page.congr rfl rfl, B.out, B.raw, B.tray, B.en, B.queue, .nil⟩
  have := (fbooked_trans hs B' t).made
  rw [List.nil_append] at this
  exact this

theorem add_takes {opt : AggregatorOpts} {D : Fullbook} {o : AObs} {clk1 clk2 ts : Int} {x : AddArg} {b : Bool} {a' : Aggregator}
    (hs : 0 < opt.step) (B : FBooked env opt D o) (h : o.a.add env clk1 clk2 ts x = .ok (b, a')) : b = D.takes opt clk1 clk2 ts := by
  unfold Fullbook.takes
  unfold Aggregator.add at h
  have hen := B.en
  by_cases he : o.a.enabled = false
  · rw [if_pos he] at h
    cases h
    simp [← hen, he]
  · rw [if_neg he] at h
    have hD : D.en = true := by rw [← hen]; simpa using he
    unfold Separator.add at h
    obtain ⟨⟨ok, s'⟩, h1, h2⟩ := bind_inv h
    obtain ⟨⟨b1, out, s1⟩, hp, hq⟩ := bind_inv h1
    cases hq
    have hb : b = ok := by
      cases ok with
      | false => cases h2; rfl
      | true =>
        simp only [Bool.true_eq_false, if_false] at h2
        obtain ⟨a1, _, h3⟩ := bind_inv h2
        cases h3; rfl
    obtain ⟨pub, -, -, -, hc⟩ := page_push_any hs B.page hp
    simp only [hD, Bool.true_eq_false, false_or]
    rcases hc with ⟨c1, c2, -⟩ | ⟨c1, c2, -⟩
    · rw [hb, c2]
      exact (decide_eq_false (by omega)).symm
    · rw [hb, c2]
      exact (decide_eq_true c1).symm

/-- An id that nobody has. -/
theorem Filed.nobody (H : Filed env opt n F r R) (hr : Room opt n) {id : Nat} (h : F.nobody id) : r.cellAt id = none := by
  cases hc : r.cellAt id with
  | none => rfl
  | some c =>
    obtain ⟨nm, L, h1, h2⟩ := H.at hr hc
    exact absurd h2 (h nm L h1)

/-- `get_aggregator`, by the folio. -/
theorem Filed.get (H : Filed env opt n F r R) (hr : Room opt n) {id : Nat} (hid : IdOk opt id) :
    (F.nobody id ∧ r.getAggregator id = .ok none) ∨
      ∃ nm L c, F.leaf nm = some L ∧ L.id = id ∧ r.getAggregator id = .ok (some c) ∧ r.agarr[placeOf opt L.id]? = some (some c) ∧
        L.ref = c.ref ∧ FBooked env opt.toAggregatorOpts L.book ⟨c.agg, forRef c.ref R, []⟩ := by
  rw [H.inv.get_eq hr hid]
  by_cases hn : F.nobody id
  · exact .inl ⟨hn, by rw [H.nobody hr hn]⟩
  · unfold Folio.nobody at hn
    push Not at hn
    obtain ⟨nm, L, h1, rfl⟩ := hn
    obtain ⟨c, -, -, k2, -, k4, k5, k6⟩ := H.cell hr h1
    exact .inr ⟨nm, L, c, h1, rfl, by rw [k2], k4, k5, k6⟩

theorem Folio.tell_nothing (F : Folio) {op : RegOp} (h : ∀ nm L, op.told nm L = []) : F.tell opt op = F := by
  unfold Folio.tell
  simp only [h, List.foldl_nil]
  congr 1
  funext nm
  cases F.leaf nm <;> rfl

/-- The leaf of a pusher. -/
theorem Filed.find (H : Filed env opt n F r R) (hr : Room opt n) (k : Nat) :
    ((∀ nm L, F.leaf nm = some L → L.ref ≠ k) ∧ r.find k = none) ∨
      ∃ nm L c, F.leaf nm = some L ∧ L.ref = k ∧ r.find k = some c.agg ∧ r.agarr[placeOf opt L.id]? = some (some c) ∧ c.ref = k ∧
        FBooked env opt.toAggregatorOpts L.book ⟨c.agg, forRef c.ref R, []⟩ := by
  cases hf : r.find k with
  | none =>
    refine .inl ⟨?_, rfl⟩
    intro nm L hL he
    obtain ⟨c, -, -, -, -, k4, k5, -⟩ := H.cell hr hL
    rw [H.inv.find_eq.2 ⟨_, c, k4, by rw [← k5, he], rfl⟩] at hf
    cases hf
  | some a =>
    obtain ⟨p, c, hp, hk, rfl⟩ := H.inv.find_eq.1 hf
    obtain ⟨nm, id, hm, -, -, hpos⟩ := H.inv.mem_cell hr hp
    obtain ⟨L, hL, rfl⟩ := (H.entry nm id).1 hm
    obtain ⟨c1, -, -, -, -, k4, k5, k6⟩ := H.cell hr hL
    have hpos' : placeOf opt L.id = p := hpos
    rw [hpos'] at k4
    rw [hp] at k4
    cases k4
    exact .inr ⟨nm, L, c, hL, by rw [k5, hk], rfl, by rw [hpos']; exact hp, hk, k6⟩

/-- `pop_` goes through the positions, and reports each under the name of its id. -/
theorem popLoop_order {force : Bool} {clk : Nat → Int} (hr : Room opt n) (is : List Nat) :
    ∀ {r : Registry} {l l' : List (Name × AggData)}, RInv opt n r → (∀ i ∈ is, i < r.agarr.length) → is.Pairwise (· < ·) →
      is.foldlM (popStep env force clk) (r, l) = .ok (r', l') →
      ∃ t, l' = l ++ t ∧ (∀ p ∈ t, ∃ i ∈ is, (p.1, i * opt.idStep + opt.idInit % opt.idStep) ∈ r.dict.dict) ∧
        t.Pairwise fun p p' => ∃ id id', id < id' ∧ (p.1, id) ∈ r.dict.dict ∧ (p'.1, id') ∈ r.dict.dict := by
  induction is with
  | nil => intro r l l' _ _ _ h; cases h; exact ⟨[], by simp, by simp, .nil⟩
  | cons i is ih =>
    intro r l l' hi hl hp h
    simp only [List.foldlM_cons] at h
    obtain ⟨⟨r1, l1⟩, h1, h2⟩ := bind_inv h
    have hil := hl i List.mem_cons_self
    obtain ⟨_, _, _, e1⟩ := seff_popStep hi hr hil h1
    obtain ⟨hlt, hp'⟩ := List.pairwise_cons.1 hp
    obtain ⟨t2, rfl, m2, o2⟩ := ih (e1.inv hi) (fun j hj => by rw [e1.len]; exact hl j (List.mem_cons_of_mem _ hj)) hp' h2
    rw [e1.dict] at m2 o2
    have key : ∃ t, l1 = l ++ t ∧ t.length ≤ 1 ∧ ∀ p ∈ t, (p.1, i * opt.idStep + opt.idInit % opt.idStep) ∈ r.dict.dict := by
      obtain ⟨g1, g2, g3⟩ := hi.pos2id hr hil
      unfold popStep at h1
      simp only [g1, bind_ok'] at h1
      generalize i * opt.idStep + opt.idInit % opt.idStep = id at *
      rw [hi.get_eq hr (.inr ⟨g2, g3⟩)] at h1
      simp only [bind_ok'] at h1
      cases hc : r.cellAt id with
      | none => rw [hc] at h1; cases h1; exact ⟨[], by simp, by simp, by simp⟩
      | some c =>
        rw [hc] at h1
        obtain ⟨⟨b, out, a1⟩, _, h3⟩ := bind_inv h1
        obtain ⟨⟨d, a2⟩, _, h4⟩ := bind_inv h3
        cases h4
        obtain ⟨nm, hm, -, -⟩ := hi.cellAt_some hr hc
        have hn : r.dict.getName id = nm := by
          unfold Dict.getName
          rw [hi.index_lookup.2 hm]; rfl
        refine ⟨_, rfl, by cases d <;> simp, ?_⟩
        intro p hp
        obtain ⟨_, _, rfl⟩ := List.mem_map.1 hp
        rw [hn]; exact hm
    obtain ⟨t1, rfl, n1, m1⟩ := key
    refine ⟨t1 ++ t2, by simp, ?_, ?_⟩
    · intro p hp
      rcases List.mem_append.1 hp with hp | hp
      · exact ⟨i, List.mem_cons_self, m1 p hp⟩
      · obtain ⟨j, hj, hm⟩ := m2 p hp
        exact ⟨j, List.mem_cons_of_mem _ hj, hm⟩
    · rw [List.pairwise_append]
      refine ⟨?_, o2, ?_⟩
      · match t1, n1 with
        | [], _ => exact .nil
        | [x], _ => exact List.pairwise_singleton _ _
      · intro p hp p' hp'
        obtain ⟨j, hj, hm⟩ := m2 p' hp'
        refine ⟨_, _, ?_, m1 p hp, hm⟩
        have := Nat.mul_lt_mul_of_pos_right (hlt j hj) hr.1
        omega

/-- The operations of an aggregator, on the leaf of an id. -/
theorem filed_id (hs : 0 < opt.step) (hr : Room opt n) (H : Filed env opt n F r R) {op : RegOp} {id : Nat} {l : List AOp} {out : List AggData}
    {del : List (Nat × AggData)} (hdel : del = (r.cellAt id).toList.flatMap fun c => out.map fun d => (c.ref, d))
    (E : SEff env r r' (r.toId id l) del) (he : r'.enabled = r.enabled) (hh : r'.hasInit = r.hasInit)
    (ht : ∀ nm L, op.told nm L = if L.id = id then l else []) :
    Filed env opt n (F.tell opt op) r' (R ++ del) ∧
      ∀ nm L, F.leaf nm = some L → L.id = id → Tell env opt.toAggregatorOpts (L.slips opt l) out := by
  have ha : ∀ nm L c, F.leaf nm = some L → r.agarr[placeOf opt L.id]? = some (some c) → L.ref = c.ref →
      forRef c.ref (r.toId id l) = op.told nm L := by
    intro nm L c hL hc _
    rw [ht]
    exact H.toId hr hL hc id l
  refine ⟨filed_seff hs hr H E he hh (fun x hx => cellAt_key H.inv hr (by rw [hdel] at hx; exact hx)) ha, ?_⟩
  intro nm L hL hid
  obtain ⟨c, -, -, -, -, k4, k5, B⟩ := H.cell hr hL
  obtain ⟨c', -, -, t⟩ := E.cell _ c k4
  rw [ha nm L c hL k4 k5, ht, if_pos hid, hdel, H.toId hr hL k4 id out, if_pos hid] at t
  exact tell_trans hs B t

/-- Every operation, by the folio. -/
theorem filed_step (hs : 0 < opt.step) (hr1 : Room opt (n + 1)) (H : Filed env opt n F r R) {op : RegOp} (hid : op.idOk opt) {resp : Resp}
    (h : r.step env op = .ok (resp, r')) :
    Filed env opt (n + 1) (F.after opt op) r' (R ++ r.delivered op resp) ∧ F.Answers env opt op resp := by
  have hr : Room opt n := hr1.mono (by omega)
  have hen := step_enabled h
  have hin := step_hasInit h
  cases op with
  | create q name now =>
    obtain ⟨⟨id, r1⟩, h1, h2⟩ := bind_inv h
    cases h2
    obtain ⟨k1, k2⟩ := filed_open hs hr H h1
    simp only [delivered, List.append_nil, Folio.after]
    exact ⟨k1, by rw [k2]; rfl⟩
  | addId id c1 c2 now v count =>
    obtain ⟨⟨b, r1⟩, h1, h2⟩ := bind_inv h
    cases h2
    have E := seff_addId H.inv hr (hid id rfl) h1
    have K := filed_id (op := .addId id c1 c2 now v count) (out := []) hs hr H (by cases r.cellAt id <;> rfl) E
      (hen.resolve_right (by simp)) (hin.resolve_right (by simp)) (fun _ _ => rfl)
    refine ⟨K.1.mono, b, rfl, ?_⟩
    unfold addId at h1
    rcases H.get hr (hid id rfl) with ⟨g1, g2⟩ | ⟨nm, L, c, g1, g2, g3, g4, g5, g6⟩
    · rw [g2] at h1
      cases h1
      simp only [Bool.false_eq_true, false_iff]
      rintro ⟨nm, L, e1, e2, -⟩
      exact g1 nm L e1 e2
    · rw [g3] at h1
      simp only [bind_ok'] at h1
      obtain ⟨⟨ok, a⟩, h3, h4⟩ := bind_inv h1
      cases h4
      have hb := add_takes hs g6 h3
      constructor
      · intro hbt
        exact ⟨nm, L, g1, g2, hb.symm.trans hbt⟩
      · rintro ⟨nm', L', e1, e2, e3⟩
        obtain ⟨-, rfl⟩ := H.same g1 e1 (g2.trans e2.symm)
        exact hb.trans e3
  | addData q name c1 c2 rd =>
    obtain ⟨⟨b, r1⟩, h1, h2⟩ := bind_inv h
    cases h2
    unfold addData at h1
    obtain ⟨⟨id, r1⟩, h3, h4⟩ := bind_inv h1
    obtain ⟨H1, hid1⟩ := filed_open hs hr H h3
    obtain ⟨o, h5, h6⟩ := bind_inv h4
    simp only [delivered, List.append_nil, Folio.after]
    generalize hF1 : F.open opt q name rd.ts = F1 at *
    by_cases h0 : name = []
    · rw [if_pos h0] at hid1
      subst hid1
      rw [show r1.getAggregator badId = .ok none from by simp [getAggregator]] at h5
      cases h5
      cases h6
      have hnone : F1.leaf name = none := by
        cases hl : F1.leaf name with
        | none => rfl
        | some L => exact absurd h0 (H1.inv.nonempty _ ((H1.entry name L.id).2 ⟨L, hl, rfl⟩))
      refine ⟨?_, false, rfl, ?_⟩
      · have E := filed_seff (op := .addData q name c1 c2 rd) hs hr1 H1 (seff_refl env r') rfl rfl (by simp) (by
          intro nm L c hL _ _
          simp only [RegOp.told]
          rw [if_neg]
          · rfl
          · rintro rfl
            rw [hnone] at hL
            cases hL)
        simpa using E
      · simp only [Bool.false_eq_true, false_iff]
        rintro ⟨L, e1, -⟩
        rw [hF1, hnone] at e1
        cases e1
    · rw [if_neg h0] at hid1
      have hl : ∃ L, F1.leaf name = some L ∧ L.id = id := by
        rw [← hF1]
        unfold Folio.open
        cases hl : F.leaf name with
        | some L =>
          rw [if_pos (.inr (by simp))]
          exact ⟨L, hl, by rw [hid1, hl]; rfl⟩
        | none =>
          rw [if_neg (by simp [h0])]
          simp only [if_true]
          exact ⟨_, rfl, by rw [hid1, hl]; rfl⟩
      obtain ⟨L, hL, rfl⟩ := hl
      obtain ⟨c, -, -, -, k3, k4, k5, B⟩ := H1.cell hr1 hL
      rw [k3] at h5
      cases h5
      obtain ⟨⟨ok, a⟩, h7, h8⟩ := bind_inv h6
      cases h8
      have hx : Aggregator.exec env { a := c.agg } (.add c1 c2 rd.ts (.reduced rd)) =
          .ok { a := a, accepted := AObs.record { a := c.agg } b c1 rd.ts (.reduced rd) } := by
        simp only [Aggregator.exec, h7, bind_ok']
      have E := seff_update H1.inv k4 (Aggregator.trans_one hx)
      refine ⟨?_, b, rfl, ?_⟩
      · have K := filed_seff (op := .addData q name c1 c2 rd) hs hr1 H1 E rfl rfl (by simp) (by
          intro nm L' c' hL' hc' hre
          simp only [RegOp.told, List.map_cons, List.map_nil]
          by_cases he : nm = name
          · subst he
            rw [hL] at hL'
            cases hL'
            rw [if_pos rfl, ← hre, k5]
            exact forRef_self c.ref [AOp.add c1 c2 rd.ts (.reduced rd)]
          · rw [if_neg he]
            refine forRef_other (l := [AOp.add c1 c2 rd.ts (.reduced rd)]) ?_
            intro hcc
            have hp := H1.inv.refs _ _ _ _ k4 hc' hcc
            have hm := (H1.entry name L.id).2 ⟨L, hL, rfl⟩
            have hm' := (H1.entry nm L'.id).2 ⟨L', hL', rfl⟩
            have := posOf_inj (H1.inv.id_form hm).1 (H1.inv.id_form hm').1 hp
            exact he (H1.same hL' hL this.symm).1)
        simpa using K
      · have hb := add_takes hs B h7
        rw [hF1]
        constructor
        · intro hbt
          exact ⟨L, hL, by rw [← hb, hbt]⟩
        · rintro ⟨L', e1, e3⟩
          rw [hL] at e1
          cases e1
          rw [hb, e3]
  | pop id =>
    obtain ⟨⟨d, r1⟩, h1, h2⟩ := bind_inv h
    cases h2
    have K := filed_id (op := .pop id) (out := d.toList) hs hr H rfl (seff_pop (env := env) H.inv hr (hid id rfl) h1)
      (hen.resolve_right (by simp)) (hin.resolve_right (by simp)) (fun _ _ => rfl)
    refine ⟨K.1.mono, d, rfl, ?_, K.2⟩
    intro hn
    unfold pop at h1
    rw [H.inv.get_eq hr (hid id rfl), H.nobody hr hn] at h1
    cases h1; rfl
  | forcePop id =>
    obtain ⟨⟨d, r1⟩, h1, h2⟩ := bind_inv h
    cases h2
    have K := filed_id (op := .forcePop id) (out := d.toList) hs hr H rfl (seff_forcePop (env := env) H.inv hr (hid id rfl) h1)
      (hen.resolve_right (by simp)) (hin.resolve_right (by simp)) (fun _ _ => rfl)
    refine ⟨K.1.mono, d, rfl, ?_, K.2⟩
    intro hn
    unfold forcePop at h1
    rw [H.inv.get_eq hr (hid id rfl), H.nobody hr hn] at h1
    cases h1; rfl
  | popAll force clk =>
    obtain ⟨⟨l, r1⟩, h1, h2⟩ := bind_inv h
    cases h2
    obtain ⟨E, hl⟩ := seff_popAll H.inv hr h1
    have ha : ∀ nm L c, F.leaf nm = some L → r.agarr[placeOf opt L.id]? = some (some c) → L.ref = c.ref →
        forRef c.ref (r.asked (.popAll force clk)) = (RegOp.popAll force clk).told nm L := by
      intro nm L c hL hc _
      obtain ⟨id', nm', hm', hc', hf⟩ := forRef_live H.inv hr hc (popOps force clk)
      obtain ⟨c3, _, i2, _, i4⟩ := H.inv.cellOf_live hr hm'
      rw [hc'] at i2
      cases i2
      have hm := (H.entry nm L.id).2 ⟨L, hL, rfl⟩
      have he : id' = L.id := posOf_inj (H.inv.id_form hm').1 (H.inv.id_form hm).1 (H.inv.refs _ _ _ _ i4 hc rfl)
      subst he
      exact hf
    have K := filed_seff (op := .popAll force clk) hs hr H E (hen.resolve_right (by simp)) (hin.resolve_right (by simp))
      (fun x hx => attrib_key H.inv hr hx) ha
    refine ⟨K.mono, l, rfl, ?_, ?_, ?_⟩
    · intro p hp
      obtain ⟨⟨nm, id⟩, hm, he⟩ := List.mem_map.1 (hl p hp)
      obtain ⟨L, hL, -⟩ := (H.entry nm id).1 hm
      simp only at he
      rw [← he, hL]; rfl
    · unfold popAll at h1
      obtain ⟨⟨r2, l2⟩, h3, h4⟩ := bind_inv h1
      cases h4
      obtain ⟨t, ht, -, o2⟩ := popLoop_order hr _ H.inv (fun i h => List.mem_range.1 h) List.pairwise_lt_range h3
      simp only [List.nil_append] at ht
      subst ht
      refine o2.imp ?_
      rintro p p' ⟨id, id', hlt, e1, e2⟩ L L' hL hL'
      have f1 := H.inv.name_eq ((H.entry _ L.id).2 ⟨L, hL, rfl⟩) e1
      have f2 := H.inv.name_eq ((H.entry _ L'.id).2 ⟨L', hL', rfl⟩) e2
      omega
    · intro nm L hL
      obtain ⟨c, -, k1, -, -, k4, k5, B⟩ := H.cell hr hL
      obtain ⟨c', -, -, t⟩ := E.cell _ c k4
      rw [ha nm L c hL k4 k5] at t
      have e2 : forRef c.ref (r.delivered (.popAll force clk) (.records l)) = (l.filter fun p => p.1 = nm).map Prod.snd :=
        forRef_attrib H.inv hr k1 l
      rw [e2] at t
      exact tell_trans hs B t
  | getName id =>
    cases h
    simp only [delivered, List.append_nil, Folio.after]
    refine ⟨H.mono, r.getName id, rfl, ?_, ?_⟩
    · intro hn
      by_contra hne
      have hm := (getName_live H.inv hne).1 rfl
      obtain ⟨L, h1, h2⟩ := (H.entry _ _).1 hm
      exact hn _ L h1 h2
    · rintro nm L hL rfl
      have hm := (H.entry nm L.id).2 ⟨L, hL, rfl⟩
      exact (getName_live H.inv (H.inv.nonempty _ hm)).2 hm
  | setInit v =>
    cases h
    simp only [delivered, List.append_nil, Folio.after]
    have I := H.inv
    refine ⟨⟨?_, H.recKey, H.entry, H.leaf, H.freed, H.last, H.next, H.en, rfl⟩, rfl⟩
    exact (⟨I.ropt, I.step, I.res, I.cle, I.idx, I.names, I.ids, I.nonempty, I.free, I.disj, I.form, I.occ, I.live, I.refs, I.refLt, I.alive,
      I.len⟩ : RInv opt n (r.setInitializer v)).mono (by omega)
  | pusherId id hd =>
    obtain ⟨p, h1, h2⟩ := bind_inv h
    cases h2
    simp only [delivered, List.append_nil, Folio.after]
    refine ⟨H.mono, p, rfl, ?_, ?_⟩
    · intro hn
      unfold pusherId at h1
      rw [H.inv.get_eq hr (hid id rfl), H.nobody hr hn] at h1
      cases h1; rfl
    · rintro nm L hL rfl
      obtain ⟨c, -, -, -, k3, k4, k5, -⟩ := H.cell hr hL
      unfold pusherId at h1
      rw [k3] at h1
      cases h1
      simp only [Option.map_some, Aggregator.createPusher, H.inv.alive _ _ k4, k5]
  | pusherName q name now hd =>
    obtain ⟨⟨p, r1⟩, h1, h2⟩ := bind_inv h
    cases h2
    unfold pusherName at h1
    obtain ⟨⟨id, r2⟩, h3, h4⟩ := bind_inv h1
    obtain ⟨p, h5, h6⟩ := bind_inv h4
    cases h6
    obtain ⟨H1, hid1⟩ := filed_open hs hr H h3
    simp only [delivered, List.append_nil, Folio.after]
    refine ⟨H1, ?_⟩
    simp only [Folio.Answers]
    congr 1
    unfold pusherId at h5
    generalize hF1 : F.open opt q name now = F1 at *
    by_cases h0 : name = []
    · rw [if_pos h0] at hid1
      subst hid1
      rw [show r'.getAggregator badId = .ok none from by simp [getAggregator]] at h5
      cases h5
      cases hl : F1.leaf name with
      | none => rfl
      | some L => exact absurd h0 (H1.inv.nonempty _ ((H1.entry name L.id).2 ⟨L, hl, rfl⟩))
    · rw [if_neg h0] at hid1
      have hl : ∃ L, F1.leaf name = some L ∧ L.id = id := by
        rw [← hF1]
        unfold Folio.open
        cases hl : F.leaf name with
        | some L =>
          rw [if_pos (.inr (by simp))]
          exact ⟨L, hl, by rw [hid1, hl]; rfl⟩
        | none =>
          rw [if_neg (by simp [h0])]
          simp only [if_true]
          exact ⟨_, rfl, by rw [hid1, hl]; rfl⟩
      obtain ⟨L, hL, rfl⟩ := hl
      obtain ⟨c, -, -, -, k3, k4, k5, -⟩ := H1.cell hr1 hL
      rw [k3] at h5
      cases h5
      rw [hL]
      simp only [Option.map_some, Aggregator.createPusher, H1.inv.alive _ _ k4, k5]
  | call p c1 c2 ts x =>
    obtain ⟨⟨l, r1⟩, h1, h2⟩ := bind_inv h
    cases h2
    have E := seff_call H.inv h1
    have ha : ∀ nm L c, F.leaf nm = some L → r.agarr[placeOf opt L.id]? = some (some c) → L.ref = c.ref →
        forRef c.ref (r.asked (.call p c1 c2 ts x)) = (RegOp.call p c1 c2 ts x).told nm L := by
      intro nm L c hL hc hre
      simp only [asked, RegOp.told]
      by_cases he : L.ref = p.ref
      · have hf : (r.find p.ref).isSome = true := by
          rw [H.inv.find_eq.2 ⟨_, c, hc, by rw [← hre, he], rfl⟩]; rfl
        by_cases ht : p.p.token = true
        · rw [if_pos ⟨hf, ht⟩, if_pos ⟨he, ht⟩, ← hre, he]
          exact forRef_self p.ref [AOp.push c1 c2 ts x p.p.handler]
        · rw [if_neg (fun h => ht h.2), if_neg (fun h => ht h.2)]
          rfl
      · rw [if_neg (fun h : L.ref = p.ref ∧ _ => he h.1)]
        split_ifs
        · have hne : p.ref ≠ c.ref := by rw [← hre]; exact Ne.symm he
          exact forRef_other hne [AOp.push c1 c2 ts x p.p.handler]
        · rfl
    have hkey : ∀ y ∈ r.delivered (.call p c1 c2 ts x) (.handed l), y.1 < r.nextRef := by
      intro y hy
      obtain ⟨d, hd, rfl⟩ := List.mem_map.1 hy
      rcases H.find hr p.ref with ⟨-, g2⟩ | ⟨nm, L, c, g1, g2, g3, g4, g5, -⟩
      · unfold call at h1
        rw [g2] at h1
        cases h1
        cases hd
      · simp only
        rw [← g5]
        exact H.inv.refLt _ _ g4
    have K := filed_seff (op := .call p c1 c2 ts x) hs hr H E (hen.resolve_right (by simp)) (hin.resolve_right (by simp)) hkey ha
    refine ⟨K.mono, l, rfl, ?_, ?_⟩
    · intro hn
      rcases H.find hr p.ref with ⟨-, g2⟩ | ⟨nm, L, c, g1, g2, -⟩
      · unfold call at h1
        rw [g2] at h1
        cases h1; rfl
      · exact absurd g2 (hn nm L g1)
    · intro nm L hL hre
      obtain ⟨c, -, -, -, -, k4, k5, B⟩ := H.cell hr hL
      obtain ⟨c', -, -, t⟩ := E.cell _ c k4
      rw [ha nm L c hL k4 k5] at t
      have e2 : forRef c.ref (r.delivered (.call p c1 c2 ts x) (.handed l)) = l := by
        simp only [delivered]
        rw [← k5, hre]
        exact forRef_self _ _
      rw [e2] at t
      have := tell_trans hs B t
      simp only [RegOp.told] at this
      by_cases ht : p.p.token = true
      · rw [if_pos ht]
        rwa [if_pos ⟨hre, ht⟩] at this
      · rw [if_neg ht]
        rwa [if_neg (fun h => ht h.2)] at this
  | enable v =>
    cases h
    simp only [delivered, Folio.after]
    have E := seff_enable (env := env) H.inv hr v
    have E' : SEff env r { r.enable v with enabled := r.enabled } (r.asked (.enable v)) [] :=
      ⟨E.dict, E.opt, E.next, E.len, E.empty, E.cell⟩
    have K := filed_seff (op := .enable v) hs hr H E' rfl rfl (by simp) (by
      intro nm L c hL hc _
      obtain ⟨id, nm', _, _, h3⟩ := forRef_live H.inv hr hc (fun _ => [.enable v])
      exact h3)
    have I := E.inv H.inv
    refine ⟨⟨I.mono (by omega), K.recKey, K.entry, K.leaf, K.freed, K.last, K.next, rfl, K.init⟩, rfl⟩
  | del name =>
    obtain ⟨⟨b, r1⟩, h1, h2⟩ := bind_inv h
    cases h2
    simp only [delivered, List.append_nil, Folio.after]
    obtain ⟨hb, hc⟩ := del_cases H.inv hr h1
    subst hb
    refine ⟨?_, rfl⟩
    rcases hc with ⟨hn, rfl⟩ | ⟨id, hm, hi', hd, ho, he, hh, hx, ha⟩
    · cases hl : F.leaf name with
      | none => exact H.mono
      | some L => exact absurd (List.mem_map.2 ⟨_, (H.entry name L.id).2 ⟨L, hl, rfl⟩, rfl⟩) hn
    · obtain ⟨L, hL, rfl⟩ := (H.entry name id).1 hm
      rw [hL]
      have hfree : r'.dict.free = L.id :: r.dict.free ∧ r'.dict.counter = r.dict.counter := by
        unfold del at h1
        have hg : r.dict.getId name = L.id := by
          unfold Dict.getId
          rw [H.inv.dict_lookup.2 hm]; rfl
        simp only [hg] at h1
        obtain ⟨f1, f2⟩ := H.inv.id_form hm
        rw [if_neg (H.inv.id_ne_bad hr f2)] at h1
        obtain ⟨p, _, h3⟩ := bind_inv h1
        split_ifs at h3
        have hf : r.dict.freeId L.id = (false, { r.dict with free := r.dict.free.insert L.id, dict := r.dict.dict.filter (fun p => p.1 ≠ name), index := r.dict.index.filter (fun p => p.1 ≠ L.id) }) := by
          unfold Dict.freeId
          rw [H.inv.index_lookup.2 hm]
        rw [hf] at h3
        cases h3
        refine ⟨?_, rfl⟩
        have : L.id ∉ r.dict.free := fun hin => H.inv.disj _ hin (List.mem_map.2 ⟨_, hm, rfl⟩)
        simp only
        rw [List.insert_of_not_mem this]
      refine ⟨hi'.mono (by omega), by rw [hx]; exact H.recKey, ?_, ?_, ?_, ?_, by rw [hx]; exact H.next, by rw [he]; exact H.en, by rw [hh]; exact H.init⟩
      · intro nm i
        rw [hd, List.mem_filter, H.entry]
        by_cases hne : nm = name
        · simp [hne]
        · simp [hne]
      · intro nm L' c hL' hc'
        simp only at hL'
        by_cases hne : nm = name
        · rw [if_pos hne] at hL'; cases hL'
        · rw [if_neg hne] at hL'
          refine H.leaf nm L' c hL' ?_
          rw [ha, List.getElem?_set_ne] at hc'
          · exact hc'
          · intro hp
            have hm' := (H.entry nm L'.id).2 ⟨L', hL', rfl⟩
            have := posOf_inj (H.inv.id_form hm).1 (H.inv.id_form hm').1 hp
            exact hne (H.same hL' hL this.symm).1
      · rw [hfree.1, H.freed]
      · rw [hfree.2]; exact H.last
  | direct id op =>
    have E := seff_direct H.inv hr (hid id rfl) h
    have hre : ∃ l, resp = .handed l ∧ (r.cellAt id = none → l = []) := by
      simp only [Registry.step, H.inv.get_eq hr (hid id rfl), bind_ok'] at h
      cases hc : r.cellAt id with
      | none => rw [hc] at h; cases h; exact ⟨[], rfl, fun _ => rfl⟩
      | some c =>
        rw [hc] at h
        obtain ⟨o, h1, h2⟩ := bind_inv h
        cases h2
        exact ⟨_, rfl, fun h => by cases h⟩
    obtain ⟨l, rfl, hl⟩ := hre
    have K := filed_id (op := .direct id op) (out := l) hs hr H rfl E
      (hen.resolve_right (by simp)) (hin.resolve_right (by simp)) (fun _ _ => rfl)
    exact ⟨K.1.mono, l, rfl, fun hn => hl (H.nobody hr hn), K.2⟩

theorem filed_execAll (hs : 0 < opt.step) (ops : List RegOp) : ∀ {n : Nat} {F : Folio} {o o' : RObs}, Filed env opt n F o.r o.received →
    Room opt (n + ops.length) → (∀ op ∈ ops, op.idOk opt) → rexecAll env o ops = .ok o' →
    Filed env opt (n + ops.length) (ops.foldl (fun F op => F.after opt op) F) o'.r o'.received := by
  induction ops with
  | nil => intro n F o o' H _ _ h; cases h; exact H
  | cons op ops ih =>
    intro n F o o' H hr hid h
    obtain ⟨o1, h1, h2⟩ := rexecAll_cons h
    unfold rexec at h1
    obtain ⟨⟨resp, r1⟩, h3, h4⟩ := bind_inv h1
    cases h4
    have e : n + 1 + ops.length = n + (op :: ops).length := by simp; omega
    rw [← e] at hr ⊢
    have K := (filed_step hs (hr.mono (by omega)) H (hid op List.mem_cons_self) h3).1
    exact ih (n := n + 1) K hr (fun x hx => hid x (List.mem_cons_of_mem _ hx)) h2

end Registry

open Registry

/-! ### C164 -/

/-- The folio kept by hand says which names are live, with which ids, what was received from each, what waits, and the page that is open. -/
theorem C164_folio (env : Env) (opt : RegistryOpts) (ops : List RegOp) (o : RObs) (hs : 0 < opt.step) (hr : Room opt ops.length)
    (hid : ∀ op ∈ ops, op.idOk opt) (h : rexecAll env { r := Registry.new opt } ops = .ok o) :
    let F := folio opt ops
    (∀ nm, (o.r.cellOf nm).isSome = (F.leaf nm).isSome) ∧ o.r.enabled = F.en ∧ o.r.hasInit = F.init ∧
    ∀ nm L, F.leaf nm = some L → o.r.getName L.id = nm ∧ ∃ c, o.r.cellOf nm = some c ∧ c.ref = L.ref ∧
      Tell env opt.toAggregatorOpts L.book.made (forRef c.ref o.received) ∧ Tell env opt.toAggregatorOpts L.book.queue c.agg.agList ∧
      Tell env opt.toAggregatorOpts L.book.tray c.agg.sep.sepList ∧ c.agg.sep.currentTime = L.book.begins ∧ c.agg.enabled = L.book.en := by
  intro F
  have H := filed_execAll hs ops (filed_new env opt) (by rw [Nat.zero_add]; exact hr) hid h
  rw [Nat.zero_add] at H
  have H : Filed env opt ops.length F o.r o.received := H
  refine ⟨?_, H.en.symm, H.init.symm, ?_⟩
  · intro nm
    cases hl : F.leaf nm with
    | some L =>
      obtain ⟨c, -, k1, -⟩ := H.cell hr hl
      rw [k1]; rfl
    | none =>
      rw [RInv.cellOf_dead]
      · rfl
      · intro hm
        obtain ⟨⟨nm', id⟩, hm', rfl⟩ := List.mem_map.1 hm
        obtain ⟨L, hL, -⟩ := (H.entry _ _).1 hm'
        rw [hl] at hL
        cases hL
  · intro nm L hL
    obtain ⟨c, hm, k1, -, -, -, k5, B⟩ := H.cell hr hL
    refine ⟨(getName_live H.inv (H.inv.nonempty _ hm)).2 hm, c, k1, k5.symm, B.made, B.queue, B.tray, ?_, B.en⟩
    have h1 := B.page.begins
    have h2 := B.page.step
    simp only [Separator.currentTime] at h1 h2 ⊢
    rw [h1, h2]
    omega

/-- Every answer of the registry is the one that the folio gives. -/
theorem C164_answers (env : Env) (opt : RegistryOpts) (ops : List RegOp) (o : RObs) (hs : 0 < opt.step) (hr : Room opt (ops.length + 1))
    (hid : ∀ op ∈ ops, op.idOk opt) (h : rexecAll env { r := Registry.new opt } ops = .ok o) (op : RegOp) (hop : op.idOk opt) (resp : Resp)
    (r' : Registry) (hstep : o.r.step env op = .ok (resp, r')) : (folio opt ops).Answers env opt op resp := by
  have H := filed_execAll hs ops (filed_new env opt) (by rw [Nat.zero_add]; exact hr.mono (by omega)) hid h
  rw [Nat.zero_add] at H
  exact (filed_step hs hr H hop hstep).2

/-! ### An example -/

/-- "a" is deleted and "c" gets its id; the third leaf ever opened is that of "c". -/
example : (folio exROpt exROps).leaf ['a'] = none ∧
    (folio exROpt exROps).leaf ['b'] = some ⟨12, 1, { begins := 1000, on := [.one 6 2] }⟩ ∧
    (folio exROpt exROps).leaf ['c'] =
      some ⟨7, 2, { begins := 1000, on := [.reduced { ts := 1003, count := 4, min := 1, max := 3, data := [1, 3] }] }⟩ ∧
    (folio exROpt exROps).freed = [] ∧ (folio exROpt exROps).last = 12 := by decide +kernel

example (nm : Name) : (exRObs.r.cellOf nm).isSome = ((folio exROpt exROps).leaf nm).isSome :=
  (C164_folio exactEnv exROpt exROps exRObs (by decide) (by decide) (by decide) exRRun).1 nm

/-- The next name gets 17, and an event for the id of "b" turns its page: the slip of the first page then waits in the queue. -/
example : (∀ resp r', exRObs.r.step exactEnv (.create {} ['d'] 1005) = .ok (resp, r') → resp = .id 17) ∧
    ((folio exROpt (exROps ++ [.addId 12 0 0 1013 1 1])).leaf ['b']).map (fun L => (L.book.begins, L.book.on, L.book.queue)) =
      some (1010, [.one 1 1], [⟨1000, [.one 6 2], false⟩]) := by
  refine ⟨fun resp r' h => ?_, by decide +kernel⟩
  have := C164_answers exactEnv exROpt exROps exRObs (by decide) (by decide) (by decide) exRRun (.create {} ['d'] 1005) (by decide) resp r' h
  exact this.trans (by decide +kernel)

end Wrtstat
