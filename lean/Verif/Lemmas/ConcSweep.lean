/-
The registry used by several threads: `pop_all` and `enable` reach every aggregator that is in the registry from the call
to the return.
-/
import Verif.Lemmas.ConcCalls

namespace Wrtstat
namespace Registry

set_option autoImplicit false

open Aggregator (AOp AObs Trans)
open Relation

section
variable {T : Type}

/-- Aggregators stay where they are. -/
theorem CEff.back {env : Env} {s s' : CReg T} {t : T} (h : CEff env t s s') {k pos : Nat} {a : Aggregator} (hk : k < s.r.nextRef)
    (hp : s'.r.agarr[pos]? = some (some ⟨k, a⟩)) : ∃ a0, s.r.agarr[pos]? = some (some ⟨k, a0⟩) := by
  cases h with
  | same arr => exact ⟨a, by rw [← arr]; exact hp⟩
  | create q name now id h =>
    obtain ⟨-, hc⟩ := create_array h
    rcases hc with ⟨h1, h2⟩ | ⟨pos', b, hb, hjn, h2, h1⟩
    · exact ⟨a, by rw [← h1]; exact hp⟩
    · rw [h1] at hp
      rcases set_grow_get pos _ hp with ⟨-, e2⟩ | ⟨-, e2⟩
      · have : k = s.r.nextRef := congrArg Cell.ref e2
        omega
      · exact ⟨a, e2⟩
  | del name b h =>
    rcases del_split h with ⟨-, -, e⟩ | ⟨pos', -, -, -, -, e⟩
    · exact ⟨a, by rw [← e]; exact hp⟩
    · rw [e] at hp; exact ⟨a, (set_none_get hp).2⟩
  | agg j b a' ops out ha ht hrr =>
    rw [hrr] at hp
    obtain ⟨c0, h0, e0, -⟩ := update_get_some hp
    exact ⟨c0.agg, by rw [h0]; simp only at e0; rw [← e0]⟩

/-- Thread `t` has asked `k` for `op` since `s0`. -/
def Since (s0 s : CReg T) (t : T) (k : Nat) (op : AOp) : Prop := ∃ x, s.log = s0.log ++ x ∧ (some t, k, op) ∈ x

theorem Since.mono {s0 s s' : CReg T} {t : T} {k : Nat} {op : AOp} (h : Since s0 s t k op) (hx : Ext s s') : Since s0 s' t k op := by
  obtain ⟨x, h1, h2⟩ := h
  obtain ⟨-, y, hy⟩ := hx
  exact ⟨x ++ y, by rw [hy, h1, List.append_assoc], List.mem_append_left _ h2⟩

/-- Both operations of `pop_all` on aggregator `k`. -/
def Swept (s0 s : CReg T) (t : T) (k : Nat) (force : Bool) (clk : Nat → Int) : Prop :=
  ∃ id nm, s.born[k]? = some (nm, id) ∧ Since s0 s t k (.separate (clk id) 0 false force) ∧
    Since s0 s t k (if force then .forcePop else .pop)

theorem Swept.mono {s0 s s' : CReg T} {t : T} {k : Nat} {force : Bool} {clk : Nat → Int} (h : Swept s0 s t k force clk) (hx : Ext s s') :
    Swept s0 s' t k force clk := by
  obtain ⟨id, nm, h1, h2, h3⟩ := h
  have hx' := hx
  obtain ⟨⟨b, hb⟩, -⟩ := hx
  exact ⟨id, nm, by rw [hb]; exact getElem?_prefix h1, h2.mono hx', h3.mono hx'⟩

/-- The position that the loop of `pop_` looks at is shifted by this. -/
def off (opt : RegistryOpts) : Nat := (opt.idInit % opt.idStep + opt.idStep - 1) / opt.idStep

/-- Where thread `t` is in its `pop_all`, and what this means for `k`. -/
def SweepAt (opt : RegistryOpts) (s0 s : CReg T) (t : T) (k : Nat) (force : Bool) (clk : Nat → Int) : CPc → Prop
  | .idle => True
  | .want op => op = .popAll force clk
  | .sweep f c i _ => f = force ∧ c = clk ∧
      ∀ (pos : Nat) (a : Aggregator), s.r.agarr[pos]? = some (some ⟨k, a⟩) → pos < i + off opt → Swept s0 s t k force clk
  | .swept f c i id k' _ => f = force ∧ c = clk ∧
      (∀ (pos : Nat) (a : Aggregator), s.r.agarr[pos]? = some (some ⟨k, a⟩) → pos < i + off opt → Swept s0 s t k force clk) ∧
      (∀ (pos : Nat) (a : Aggregator), s.r.agarr[pos]? = some (some ⟨k, a⟩) → pos = i + off opt →
        k' = k ∧ (∃ nm, s.born[k]? = some (nm, id)) ∧ Since s0 s t k (.separate (clk id) 0 false force))
  | .leave op _ => op = .popAll force clk ∧ ((∃ a, At s.r k a) → Swept s0 s t k force clk)
  | _ => False

/-- Where thread `t` is in its `enable`. -/
def EnabAt (s0 s : CReg T) (t : T) (k : Nat) (v : Bool) : CPc → Prop
  | .idle => True
  | .want op => op = .enable v
  | .enab w i => w = v ∧
      ∀ (pos : Nat) (a : Aggregator), s.r.agarr[pos]? = some (some ⟨k, a⟩) → pos < i → Since s0 s t k (.enable v)
  | .leave op _ => op = .enable v ∧ ((∃ a, At s.r k a) → Since s0 s t k (.enable v))
  | _ => False

/-- The ids that `pop_` runs over are not the reserved one. -/
theorem RInv.pos2id_lt {opt : RegistryOpts} {n : Nat} {r : Registry} (hi : RInv opt n r) (hr : Room opt n) {i : Nat} (h : i < r.agarr.length) :
    i * opt.idStep + opt.idInit % opt.idStep + 1 < idMod := by
  have h0 := hr.1
  have hb := hi.bound hr
  have hl := hi.len
  have hm := Nat.mod_lt opt.idInit h0
  have he : (opt.idInit % opt.idStep + opt.idStep - 1) / opt.idStep ≤ 1 := by
    have : (opt.idInit % opt.idStep + opt.idStep - 1) / opt.idStep < 2 := by
      rw [Nat.div_lt_iff_lt_mul h0]
      omega
    omega
  unfold posOf at hl
  have h1 : i * opt.idStep ≤ (r.dict.counter / opt.idStep + 1) * opt.idStep := Nat.mul_le_mul_right _ (by omega)
  rw [Nat.add_mul] at h1
  have h2 := Nat.div_mul_le_self r.dict.counter opt.idStep
  omega

theorem SweepAt.mono {env : Env} {opt : RegistryOpts} {s0 s s' : CReg T} {t u : T} {k : Nat} {force : Bool} {clk : Nat → Int} {p : CPc}
    (hk : k < s.r.nextRef) (he : CEff env u s s') (h : SweepAt opt s0 s t k force clk p) : SweepAt opt s0 s' t k force clk p := by
  have hx := he.ext
  have hb := hx.1
  cases p with
  | idle => trivial
  | want op => exact h
  | sweep f c i acc =>
    refine ⟨h.1, h.2.1, fun pos a hp hl => ?_⟩
    obtain ⟨a0, h0⟩ := he.back hk hp
    exact (h.2.2 pos a0 h0 hl).mono hx
  | swept f c i id k' acc =>
    refine ⟨h.1, h.2.1, fun pos a hp hl => ?_, fun pos a hp hl => ?_⟩
    · obtain ⟨a0, h0⟩ := he.back hk hp
      exact (h.2.2.1 pos a0 h0 hl).mono hx
    · obtain ⟨a0, h0⟩ := he.back hk hp
      obtain ⟨h1, ⟨nm, h2⟩, h3⟩ := h.2.2.2 pos a0 h0 hl
      obtain ⟨b, hb⟩ := hb
      exact ⟨h1, ⟨nm, by rw [hb]; exact getElem?_prefix h2⟩, h3.mono hx⟩
  | leave op resp =>
    refine ⟨h.1, ?_⟩
    rintro ⟨a, pos, hp⟩
    obtain ⟨a0, h0⟩ := he.back hk hp
    exact (h.2 ⟨a0, pos, h0⟩).mono hx
  | named => exact h
  | «have» => exact h
  | enab => exact h

theorem EnabAt.mono {env : Env} {s0 s s' : CReg T} {t u : T} {k : Nat} {v : Bool} {p : CPc}
    (hk : k < s.r.nextRef) (he : CEff env u s s') (h : EnabAt s0 s t k v p) : EnabAt s0 s' t k v p := by
  have hx := he.ext
  cases p with
  | idle => trivial
  | want op => exact h
  | enab w i =>
    refine ⟨h.1, fun pos a hp hl => ?_⟩
    obtain ⟨a0, h0⟩ := he.back hk hp
    exact (h.2 pos a0 h0 hl).mono hx
  | leave op resp =>
    refine ⟨h.1, ?_⟩
    rintro ⟨a, pos, hp⟩
    obtain ⟨a0, h0⟩ := he.back hk hp
    exact (h.2 ⟨a0, pos, h0⟩).mono hx
  | named => exact h
  | «have» => exact h
  | sweep => exact h
  | swept => exact h

variable [DecidableEq T] [Fintype T]

/-- Histories grow, and a thread that has made no other call since is where it was or further on. -/
theorem step_inv {env : Env} {P : RegOp → Prop} {s s' : CReg T} (t : T) (h : CReg.Step env P s s') :
    (invOf t s.hist <+: invOf t s'.hist) := by
  cases h with
  | call u op hp hi =>
    show _ <+: invOf t (s.hist ++ [_])
    rw [invOf_call]
    exact List.prefix_append _ _
  | move _ u hm =>
    have : invOf t s'.hist = invOf t s.hist := by
      by_cases hu : ∃ op resp, s.pc u = .leave op resp
      · obtain ⟨op, resp, hl⟩ := hu
        unfold CReg.move at hm
        rw [hl] at hm
        cases hm
        exact invOf_res t u s.hist op resp
      · have : s'.hist = s.hist := by
          unfold CReg.move at hm
          split at hm
          case h_1 => cases hm
          case h_2 op hpc =>
            cases op <;> simp only [CReg.start, CReg.look, CReg.create] at hm <;>
              (repeat' split at hm) <;> cases hm <;> rfl
          case h_3 op id hpc =>
            simp only [CReg.look] at hm
            (repeat' split at hm) <;> cases hm <;> rfl
          case h_8 op resp hpc => exact absurd ⟨op, resp, hpc⟩ hu
          all_goals (repeat' split at hm) <;> cases hm <;> rfl
        rw [this]
    rw [this]

theorem reach_inv {env : Env} {P : RegOp → Prop} {s s' : CReg T} (t : T) (h : ReflTransGen (CReg.Step env P) s s') :
    invOf t s.hist <+: invOf t s'.hist := by
  induction h with
  | refl => exact List.prefix_refl _
  | tail _ hs ih => exact ih.trans (step_inv t hs)

omit [Fintype T] in
theorem log_ext {s0 s : CReg T} {t : T} {k : Nat} {b : Aggregator} {op : AOp} {out : List AggData} (hs : ∃ x, s.log = s0.log ++ x)
    (p : CPc) : Since s0 ((s.setAgg t k b [op] out).goto t p) t k op := by
  obtain ⟨x, hx⟩ := hs
  refine ⟨x ++ [(some t, k, op)], ?_, by simp⟩
  show s.log ++ _ = _
  rw [hx, List.append_assoc]
  rfl

theorem SweepAt.own {env : Env} {opt : RegistryOpts} {s0 s s' : CReg T} {t : T} {k : Nat} {force : Bool} {clk : Nat → Int}
    (hser : Serial env opt.toAggregatorOpts s) (hnm : Named opt s) (hr : Room opt s.r.nextRef) (hs0 : ∃ x, s.log = s0.log ++ x)
    (hk : k < s.r.nextRef) (hm : s.move env t = some s') (h : SweepAt opt s0 s t k force clk (s.pc t)) :
    SweepAt opt s0 s' t k force clk (s'.pc t) := by
  have he := move_eff hser.uniq hm
  have hx := he.ext
  have back : ∀ {pos : Nat} {a : Aggregator}, s'.r.agarr[pos]? = some (some ⟨k, a⟩) → ∃ a0, s.r.agarr[pos]? = some (some ⟨k, a0⟩) :=
    fun hp => he.back hk hp
  unfold CReg.move at hm
  split at hm <;> rename_i hpc <;> rw [hpc] at h
  case h_1 => cases hm
  case h_2 =>
    rw [show _ = RegOp.popAll force clk from h] at hm
    unfold CReg.start at hm
    simp only at hm
    split at hm
    · cases hm
      rw [goto_self]
      refine ⟨rfl, rfl, fun pos a hp hl => ?_⟩
      exfalso
      obtain ⟨nm, id, -, h2, h3⟩ := hnm.live pos _ hp
      unfold posOf at h3
      unfold off at hl
      have := Nat.zero_le (id / opt.idStep)
      generalize id / opt.idStep = y at *
      omega
    · cases hm
  case h_3 => exact h.elim
  case h_4 => exact h.elim
  case h_5 i acc =>
    obtain ⟨rfl, rfl, h⟩ := h
    split at hm
    · rename_i hi
      obtain ⟨hp1, hp2, hp3⟩ := hnm.rinv.pos2id hr hi
      have hpo : posOf opt.idStep (opt.idInit % opt.idStep) (i * opt.idStep + opt.idInit % opt.idStep) = i + off opt := by
        unfold posOf off
        rw [Nat.add_comm (i * _), Nat.add_mul_div_right _ _ hr.1, Nat.div_eq_of_lt (Nat.mod_lt _ hr.1), Nat.zero_add]
      have hnb : i * opt.idStep + opt.idInit % opt.idStep ≠ badId := by
        have := RInv.pos2id_lt hnm.rinv hr hi
        unfold badId
        unfold idMod at this
        omega
      split at hm
      · cases hm
      · rename_i id hid
        rw [hp1] at hid
        cases hid
        rw [hnm.rinv.get hr hp2 hp3 hnb, hpo] at hm
        split at hm
        · cases hm
        · rename_i hg
          cases hm
          rw [goto_self]
          refine ⟨rfl, rfl, fun pos a hp hl => ?_⟩
          by_cases hpos : pos = i + off opt
          · subst hpos
            rw [show s.r.agarr[i + off opt]? = some (some ⟨k, a⟩) from hp] at hg
            cases hg
          · exact (h pos a hp (by omega)).mono hx
        · rename_i c hg
          split at hm
          · cases hm
          · rename_i b out a hs
            cases hm
            rw [goto_self]
            have hat : s.r.agarr[i + off opt]? = some (some c) := by
              cases hc : s.r.agarr[i + off opt]? with
              | none => rw [hc] at hg; cases hg
              | some o => rw [hc] at hg; exact congrArg some (Except.ok.inj hg)
            refine ⟨rfl, rfl, fun pos a hp hl => ?_, fun pos a' hp hl => ?_⟩
            · obtain ⟨a0, h0⟩ := back hp
              exact (h pos a0 h0 hl).mono hx
            · obtain ⟨a0, h0⟩ := back hp
              rw [hl, hat] at h0
              cases h0
              obtain ⟨nm, id', g1, g2, g3⟩ := hnm.live _ _ hat
              have := posOf_inj (hnm.rinv.id_form g2).1 hp2 (g3.trans hpo.symm)
              subst this
              exact ⟨rfl, ⟨nm, g1⟩, log_ext hs0 _⟩
    · rename_i hi
      cases hm
      rw [goto_self]
      refine ⟨rfl, ?_⟩
      rintro ⟨a, pos, hp⟩
      have := (List.getElem?_eq_some_iff.1 hp).1
      exact (h pos a hp (by simp only [CReg.goto] at this; omega)).mono hx
  case h_6 i id k' acc =>
    obtain ⟨rfl, rfl, h1, h2⟩ := h
    split at hm
    · cases hm
    · split at hm
      · cases hm
      · cases hm
        rw [goto_self]
        refine ⟨rfl, rfl, fun pos a hp hl => ?_⟩
        obtain ⟨a0, h0⟩ := back hp
        by_cases hpos : pos = i + off opt
        · obtain ⟨rfl, ⟨nm, g1⟩, g2⟩ := h2 pos a0 h0 hpos
          exact ⟨id, nm, g1, g2.mono hx, log_ext hs0 _⟩
        · exact (h1 pos a0 h0 (by omega)).mono hx
  case h_7 => exact h.elim
  case h_8 =>
    cases hm
    rw [goto_self]
    trivial

theorem EnabAt.own {env : Env} {opt : AggregatorOpts} {s0 s s' : CReg T} {t : T} {k : Nat} {v : Bool}
    (hser : Serial env opt s) (hs0 : ∃ x, s.log = s0.log ++ x)
    (hk : k < s.r.nextRef) (hm : s.move env t = some s') (h : EnabAt s0 s t k v (s.pc t)) : EnabAt s0 s' t k v (s'.pc t) := by
  have he := move_eff hser.uniq hm
  have hx := he.ext
  have back : ∀ {pos : Nat} {a : Aggregator}, s'.r.agarr[pos]? = some (some ⟨k, a⟩) → ∃ a0, s.r.agarr[pos]? = some (some ⟨k, a0⟩) :=
    fun hp => he.back hk hp
  unfold CReg.move at hm
  split at hm <;> rename_i hpc <;> rw [hpc] at h
  case h_1 => cases hm
  case h_2 =>
    rw [show _ = RegOp.enable v from h] at hm
    unfold CReg.start at hm
    simp only at hm
    split at hm
    · cases hm
      rw [goto_self]
      exact ⟨rfl, fun pos a hp hl => absurd hl (Nat.not_lt_zero _)⟩
    · cases hm
  case h_3 => exact h.elim
  case h_4 => exact h.elim
  case h_5 => exact h.elim
  case h_6 => exact h.elim
  case h_7 i =>
    obtain ⟨rfl, h⟩ := h
    split at hm
    · split at hm
      · rename_i hg
        cases hm
        rw [goto_self]
        refine ⟨rfl, fun pos a hp hl => ?_⟩
        by_cases hpos : pos = i
        · subst hpos
          rw [show s.r.agarr[pos]? = some (some ⟨k, a⟩) from hp] at hg
          cases hg
        · exact (h pos a hp (by omega)).mono hx
      · rename_i c hg
        cases hm
        rw [goto_self]
        refine ⟨rfl, fun pos a hp hl => ?_⟩
        obtain ⟨a0, h0⟩ := back hp
        by_cases hpos : pos = i
        · subst hpos
          rw [h0] at hg
          cases hg
          exact log_ext hs0 _
        · exact (h pos a0 h0 (by omega)).mono hx
    · cases hm
      rw [goto_self]
      refine ⟨rfl, ?_⟩
      rintro ⟨a, pos, hp⟩
      have := (List.getElem?_eq_some_iff.1 hp).1
      exact (h pos a hp (by simp only [CReg.goto] at this; omega)).mono hx
  case h_8 =>
    cases hm
    rw [goto_self]
    trivial

theorem reach_mono {env : Env} {P : RegOp → Prop} {opt : AggregatorOpts} {s0 s : CReg T} (h0 : Serial env opt s0)
    (h : ReflTransGen (CReg.Step env P) s0 s) : Serial env opt s ∧ (∃ x, s.log = s0.log ++ x) ∧ s0.r.nextRef ≤ s.r.nextRef := by
  induction h with
  | refl => exact ⟨h0, ⟨[], (List.append_nil _).symm⟩, Nat.le_refl _⟩
  | tail _ hs ih =>
    obtain ⟨i1, ⟨x, i2⟩, i3⟩ := ih
    obtain ⟨t, he⟩ := step_eff i1.uniq hs
    obtain ⟨-, y, hy⟩ := he.ext
    exact ⟨i1.eff he, ⟨x ++ y, by rw [hy, i2, List.append_assoc]⟩, i3.trans (he.next i1.uniq)⟩

/-- From the call on, as long as the thread makes no other call. -/
theorem during {env : Env} {P : RegOp → Prop} {opt : RegistryOpts} {s0 s : CReg T} {t : T} (Q : CReg T → CPc → Prop)
    (h0 : ReflTransGen (CReg.Step env P) (CReg.init (Registry.new opt)) s0) (hq : Q s0 (s0.pc t))
    (other : ∀ s s' u p, ReflTransGen (CReg.Step env P) s0 s → CEff env u s s' → Q s p → Q s' p)
    (own : ∀ s s', ReflTransGen (CReg.Step env P) s0 s → Room opt s.r.nextRef → s.move env t = some s' → Q s (s.pc t) → Q s' (s'.pc t))
    (h : ReflTransGen (CReg.Step env P) s0 s) (hr : Room opt s.r.nextRef) (hi : invOf t s.hist = invOf t s0.hist) : Q s (s.pc t) := by
  induction h with
  | refl => exact hq
  | @tail s s' hreach hs ih =>
    have hser := (reach_mono (serial_reach h0) hreach).1
    have hi0 : invOf t s.hist = invOf t s0.hist := by
      have h1 := reach_inv t hreach
      have h2 := step_inv t hs
      rw [hi] at h2
      exact (h1.eq_of_length_le h2.length_le).symm
    obtain ⟨u', he'⟩ := step_eff hser.uniq hs
    have hle := he'.next hser.uniq
    have ih := ih (hr.mono hle) hi0
    cases hs with
    | call u op hp hidle =>
      by_cases hu : t = u
      · subst hu
        exfalso
        have : invOf t (s.hist ++ [.inv t op]) = invOf t s0.hist := hi
        rw [invOf_call, if_pos rfl, hi0] at this
        simp at this
      · rw [show (s.call u op).pc t = s.pc t from goto_ne _ _ hu]
        exact other _ _ u _ hreach call_eff ih
    | move _ u hm =>
      have he := move_eff hser.uniq hm
      by_cases hu : t = u
      · subst hu
        exact own _ _ hreach (hr.mono hle) hm ih
      · rw [(move_aside hu hm).1]
        exact other _ _ u _ hreach he ih

theorem sweep_all {env : Env} {P : RegOp → Prop} {opt : RegistryOpts} {s0 s : CReg T} {t : T} {k : Nat} {force : Bool} {clk : Nat → Int}
    (h0 : ReflTransGen (CReg.Step env P) (CReg.init (Registry.new opt)) s0) (hq : s0.pc t = .want (.popAll force clk))
    (hk : ∃ a, At s0.r k a)
    (h : ReflTransGen (CReg.Step env P) s0 s) (hr : Room opt s.r.nextRef) (hi : invOf t s.hist = invOf t s0.hist) :
    SweepAt opt s0 s t k force clk (s.pc t) := by
  have hlt : k < s0.r.nextRef := by
    obtain ⟨a, i, hi⟩ := hk
    exact (serial_reach h0).uniq.lt i _ hi
  refine during (fun s p => SweepAt opt s0 s t k force clk p) h0 (by rw [hq]; rfl) ?_ ?_ h hr hi
  · intro s s' u p hs he hQ
    exact hQ.mono (Nat.lt_of_lt_of_le hlt (reach_mono (serial_reach h0) hs).2.2) he
  · intro s s' hs hr hm hQ
    obtain ⟨r1, r2, r3⟩ := reach_mono (serial_reach h0) hs
    exact hQ.own r1 (told_reach (h0.trans hs) hr).1 hr r2 (Nat.lt_of_lt_of_le hlt r3) hm

theorem enab_all {env : Env} {P : RegOp → Prop} {opt : RegistryOpts} {s0 s : CReg T} {t : T} {k : Nat} {v : Bool}
    (h0 : ReflTransGen (CReg.Step env P) (CReg.init (Registry.new opt)) s0) (hq : s0.pc t = .want (.enable v))
    (hk : ∃ a, At s0.r k a)
    (h : ReflTransGen (CReg.Step env P) s0 s) (hr : Room opt s.r.nextRef) (hi : invOf t s.hist = invOf t s0.hist) :
    EnabAt s0 s t k v (s.pc t) := by
  have hlt : k < s0.r.nextRef := by
    obtain ⟨a, i, hi⟩ := hk
    exact (serial_reach h0).uniq.lt i _ hi
  refine during (fun s p => EnabAt s0 s t k v p) h0 (by rw [hq]; rfl) ?_ ?_ h hr hi
  · intro s s' u p hs he hQ
    exact hQ.mono (Nat.lt_of_lt_of_le hlt (reach_mono (serial_reach h0) hs).2.2) he
  · intro s s' hs hr hm hQ
    obtain ⟨r1, r2, r3⟩ := reach_mono (serial_reach h0) hs
    exact hQ.own r1 r2 (Nat.lt_of_lt_of_le hlt r3) hm

end

end Registry
end Wrtstat
