/-
C155: the meter manager and the registry of the older sources do what the current classes do.
-/
import Verif.Spec.LegacySpec
import Verif.Props.Legacy
import Verif.Lemmas.Accessors
import Verif.Lemmas.Shift

namespace Wrtstat
namespace Legacy

set_option autoImplicit false

open Registry (RegOp Resp)

/-! ### The registry -/

theorem construct_eq {r : Registry} (hi : r.hasInit = false) (env : Env) (q : Ask) (now : Int) :
    construct r q now = Registry.construct env r q now := by
  unfold construct Registry.construct
  rw [hi]
  rfl

theorem create_eq {r : Registry} (hi : r.hasInit = false) (env : Env) (q : Ask) (n : Name) (now : Int) :
    createAggregator r q n now = r.createAggregator env q n now := by
  unfold createAggregator Registry.createAggregator
  simp only
  rw [construct_eq (r := { r with dict := (r.dict.createId q.pick n).2 }) hi env]
  by_cases h : n = []
  · rw [if_pos h, if_pos h]
  · rw [if_neg h, if_neg h]
    refine bind_congr fun pos => ?_
    cases r.agarr[pos]?.join <;> rfl

theorem addId_eq (env : Env) (r : Registry) (id : Nat) (c1 c2 t v : Int) (n : Nat) :
    addId env r id c1 c2 t v n = r.addId env id c1 c2 t v n := by
  unfold addId Registry.addId
  simp only [add_eq]
  refine bind_congr fun o => ?_
  cases o <;> rfl

theorem addData_eq {r : Registry} (hi : r.hasInit = false) (env : Env) (q : Ask) (n : Name) (c1 c2 : Int) (rd : ReducedData) :
    addData env r q n c1 c2 rd = r.addData env q n c1 c2 rd := by
  unfold addData Registry.addData
  simp only [add_eq, create_eq hi env]
  refine bind_congr fun x => bind_congr fun o => ?_
  cases o <;> rfl

theorem call_eq (env : Env) (r : Registry) (p : RPusher) (c1 c2 ts : Int) (x : AddArg) :
    call env r p c1 c2 ts x = r.call env p c1 c2 ts x := by
  unfold call Registry.call Aggregator.Pusher.call
  cases r.find p.ref with
  | none => rfl
  | some a =>
    simp only [push_eq]
    by_cases h : p.p.token = true ∧ a.alive = true
    · rw [if_pos h, if_pos h]
      cases a.push env c1 c2 ts x p.p.handler <;> rfl
    · rw [if_neg h, if_neg h]
      rfl

/-- Call by call: a `force_pop` that finds an aggregator with nothing in it is undefined; all else is as it is now, faults included. -/
theorem C155_registry {r : Registry} (hi : r.hasInit = false) (env : Env) (op : ROp) :
    (RFindsNothing env r op → rstep env r op = .error .ub) ∧
    (¬ RFindsNothing env r op → rstep env r op = r.step env op.now) := by
  have other : (∀ id, op ≠ .forcePop id) → (∀ id, op ≠ .direct id .forcePop) →
      (RFindsNothing env r op → rstep env r op = .error .ub) ∧
      (rstep env r op = r.step env op.now → ¬ RFindsNothing env r op → rstep env r op = r.step env op.now) := by
    intro h1 h2
    refine ⟨?_, fun h _ => h⟩
    rintro ⟨id, c, r', _, h | h⟩
    · exact absurd h.1 (h1 id)
    · exact absurd h.1 (h2 id)
  cases op with
  | create q n t =>
    have o := other (fun _ h => by cases h) (fun _ h => by cases h)
    exact ⟨o.1, o.2 (by simp only [rstep, ROp.now, Registry.step, create_eq hi env])⟩
  | addId id c1 c2 t v n =>
    have o := other (fun _ h => by cases h) (fun _ h => by cases h)
    exact ⟨o.1, o.2 (by simp only [rstep, ROp.now, Registry.step, addId_eq])⟩
  | addData q n c1 c2 rd =>
    have o := other (fun _ h => by cases h) (fun _ h => by cases h)
    exact ⟨o.1, o.2 (by simp only [rstep, ROp.now, Registry.step, addData_eq hi])⟩
  | pop id => exact ⟨(other (fun _ h => by cases h) (fun _ h => by cases h)).1, fun _ => rfl⟩
  | getName id => exact ⟨(other (fun _ h => by cases h) (fun _ h => by cases h)).1, fun _ => rfl⟩
  | pusherId id h => exact ⟨(other (fun _ h => by cases h) (fun _ h => by cases h)).1, fun _ => rfl⟩
  | pusherName q n t h =>
    have o := other (fun _ h => by cases h) (fun _ h => by cases h)
    exact ⟨o.1, o.2 (by simp only [rstep, ROp.now, Registry.step, pusherName, Registry.pusherName, create_eq hi env])⟩
  | call p c1 c2 ts x =>
    have o := other (fun _ h => by cases h) (fun _ h => by cases h)
    exact ⟨o.1, o.2 (by simp only [rstep, ROp.now, Registry.step, call_eq])⟩
  | enable v => exact ⟨(other (fun _ h => by cases h) (fun _ h => by cases h)).1, fun _ => rfl⟩
  | del n => exact ⟨(other (fun _ h => by cases h) (fun _ h => by cases h)).1, fun _ => rfl⟩
  | forcePop id =>
    simp only [RFindsNothing, rstep, ROp.now, Registry.step, regForcePop, Registry.forcePop]
    cases hg : r.getAggregator id with
    | error e => exact ⟨fun ⟨_, _, _, h, k⟩ => (by rcases k with ⟨k, _⟩ | ⟨k, _⟩ <;> cases k; rw [hg] at h; cases h), fun _ => rfl⟩
    | ok o =>
      cases o with
      | none => exact ⟨fun ⟨_, _, _, h, k⟩ => (by rcases k with ⟨k, _⟩ | ⟨k, _⟩ <;> cases k; rw [hg] at h; cases h), fun _ => rfl⟩
      | some c =>
        simp only [bind_ok', forcePop_eq]
        cases hf : c.agg.forcePop env with
        | error e =>
          refine ⟨fun ⟨id', c', r', h, k⟩ => ?_, fun _ => rfl⟩
          rcases k with ⟨k, k'⟩ | ⟨k, _⟩ <;> cases k
          rw [hg] at k'
          simp only [bind_ok', hf] at k'
          cases k'
        | ok x =>
          obtain ⟨d, a⟩ := x
          cases d with
          | none =>
            refine ⟨fun _ => rfl, fun h => absurd ⟨id, c, r.update c.ref a, hg, .inl ⟨rfl, ?_⟩⟩ h⟩
            rw [hg]
            simp only [bind_ok', hf]
          | some d =>
            refine ⟨fun ⟨id', c', r', h, k⟩ => ?_, fun _ => rfl⟩
            rcases k with ⟨k, k'⟩ | ⟨k, _⟩ <;> cases k
            rw [hg] at k'
            simp only [bind_ok', hf] at k'
            cases k'
  | direct id op =>
    obtain hop | hop : op ≠ .forcePop ∨ op = .forcePop := by
      cases op <;> first | exact .inr rfl | exact .inl (fun h => by cases h)
    · have o := other (fun _ h => by cases h) (fun _ h => by cases h; exact hop rfl)
      refine ⟨o.1, o.2 ?_⟩
      simp only [rstep, ROp.now, Registry.step]
      have e : ∀ c : Cell, exec env { a := c.agg } op = Aggregator.exec env { a := c.agg } op := fun c =>
        (C145_step env { a := c.agg } op).2 fun h => hop h.1
      simp only [e]
      refine bind_congr fun o => ?_
      cases o <;> rfl
    · subst hop
      simp only [RFindsNothing, rstep, ROp.now, Registry.step]
      cases hg : r.getAggregator id with
      | error e => exact ⟨fun ⟨_, _, _, h, k⟩ => (by rcases k with ⟨k, _⟩ | ⟨k, _⟩ <;> cases k; rw [hg] at h; cases h), fun _ => rfl⟩
      | ok o =>
        cases o with
        | none => exact ⟨fun ⟨_, _, _, h, k⟩ => (by rcases k with ⟨k, _⟩ | ⟨k, _⟩ <;> cases k; rw [hg] at h; cases h), fun _ => rfl⟩
        | some c =>
          simp only [bind_ok', exec, Aggregator.exec, forcePop_eq]
          cases hf : c.agg.forcePop env with
          | error e =>
            refine ⟨fun ⟨id', c', r', h, k⟩ => ?_, fun _ => rfl⟩
            rcases k with ⟨k, _⟩ | ⟨k, k'⟩ <;> cases k
            rw [hg] at k'
            simp only [bind_ok', hf] at k'
            cases k'
          | ok x =>
            obtain ⟨d, a⟩ := x
            cases d with
            | none =>
              refine ⟨fun _ => rfl, fun h => absurd ⟨id, c, r.update c.ref a, hg, .inr ⟨rfl, ?_⟩⟩ h⟩
              rw [hg]
              simp only [bind_ok', hf]
              rfl
            | some d =>
              refine ⟨fun ⟨id', c', r', h, k⟩ => ?_, fun _ => rfl⟩
              rcases k with ⟨k, _⟩ | ⟨k, k'⟩ <;> cases k
              rw [hg] at k'
              simp only [bind_ok', hf] at k'
              cases k'

/-! ### The meter manager -/

namespace Manager

/-- The current object with the same members. -/
def toWrt (m : Manager) : Wrt := { reg := m.reg, handler := m.handler }

/-- The older object with the members of a current one. -/
def back (m : Manager) (w : Wrt) : Manager := { m with reg := w.reg }

theorem meterId_eq (m : Manager) (id : Nat) : m.meterId id = m.toWrt.meterId id := rfl

theorem compositePusher_eq (m : Manager) (t r x : Nat) (ht hr hw : Hnd) (s : Bool) :
    m.compositePusher t r x ht hr hw s = m.toWrt.compositePusher t r x ht hr hw s := rfl

theorem meterName_eq {m : Manager} (hi : m.reg.hasInit = false) (env : Env) (q : Ask) (n : Name) (now : Int) :
    m.meterName q n now = (m.toWrt.meterName env q n now).map fun x => (x.1, m.back x.2) := by
  unfold Manager.meterName Wrt.meterName
  rw [create_eq hi env]
  show (m.reg.createAggregator env q n now >>= _) = Except.map _ (m.reg.createAggregator env q n now >>= _)
  rw [except_map_bind]
  refine bind_congr fun x => ?_
  rw [except_map_bind]
  rfl

theorem meterName_hasInit {env : Env} {w w' : Wrt} {q : Ask} {n : Name} {now : Int} {p : Option WPusher}
    (h : w.meterName env q n now = .ok (p, w')) : w'.reg.hasInit = w.reg.hasInit := by
  obtain ⟨⟨id, r⟩, h1, h2⟩ := bind_inv h
  obtain ⟨p', _, h3⟩ := bind_inv h2
  cases h3
  exact Registry.create_hasInit h1

theorem multiLoop_eq (env : Env) (n : Name) (ask : Nat → Ask × Int) (l : List Name) : ∀ (i : Nat) (m : Manager), m.reg.hasInit = false →
    m.multiLoop n ask i l =
      (m.toWrt.multiMeter env n (l.mapIdx fun j p => (p, (ask (i + j)).1, (ask (i + j)).2))).map fun x => (x.1, m.back x.2) := by
  induction l with
  | nil => intro i m _; rfl
  | cons p l ih =>
    intro i m hi
    rw [List.mapIdx_cons]
    unfold Manager.multiLoop Wrt.multiMeter
    rw [meterName_eq hi env, except_bind_map, except_map_bind]
    show (m.toWrt.meterName env _ _ _ >>= _) = (m.toWrt.meterName env _ _ _ >>= _)
    cases hm : m.toWrt.meterName env (ask i).1 (p ++ n) (ask i).2 with
    | error e => rfl
    | ok x =>
      obtain ⟨q, w⟩ := x
      have hw : (m.back w).reg.hasInit = false := (meterName_hasInit hm).trans hi
      have hh : (m.back w).toWrt = w := by
        obtain ⟨⟨id, r⟩, h1, h2⟩ := bind_inv hm
        obtain ⟨p', _, h3⟩ := bind_inv h2
        cases h3
        rfl
      simp only [bind_ok']
      rw [ih (i + 1) _ hw, except_bind_map, except_map_bind, hh]
      have e : ∀ j, i + 1 + j = i + (j + 1) := fun j => by omega
      simp only [e]
      rfl

/-- One creation of a composite meter. -/
theorem createThree_eq {m : Manager} (hi : m.reg.hasInit = false) (env : Env) (ord : Order) (qt qr qw : Ask) (nt nr nw : Name) (now : Int) :
    m.createThree ord qt qr qw nt nr nw now =
      (m.toWrt.createThree env ord qt qr qw nt nr nw now).map fun x => (x.1, m.back x.2) := by
  have three : ∀ (q1 q2 q3 : Ask) (n1 n2 n3 : Name) (f : Nat → Nat → Nat → Nat × Nat × Nat),
      (createAggregator m.reg q1 n1 now >>= fun x => createAggregator x.2 q2 n2 now >>= fun y => createAggregator y.2 q3 n3 now >>= fun z =>
        (.ok (f x.1 y.1 z.1, { m with reg := z.2 }) : M _)) =
      (m.reg.createAggregator env q1 n1 now >>= fun x => x.2.createAggregator env q2 n2 now >>= fun y =>
        y.2.createAggregator env q3 n3 now >>= fun z => (.ok (f x.1 y.1 z.1, { m with reg := z.2 }) : M _)) := by
    intro q1 q2 q3 n1 n2 n3 f
    rw [create_eq hi env]
    cases h1 : m.reg.createAggregator env q1 n1 now with
    | error e => rfl
    | ok x =>
      have i1 : x.2.hasInit = false := (Registry.create_hasInit (id := x.1) (r' := x.2) h1).trans hi
      simp only [bind_ok']
      rw [create_eq i1 env]
      cases h2 : x.2.createAggregator env q2 n2 now with
      | error e => rfl
      | ok y =>
        have i2 : y.2.hasInit = false := (Registry.create_hasInit (id := y.1) (r' := y.2) h2).trans i1
        simp only [bind_ok']
        rw [create_eq i2 env]
  cases ord with
  | trw =>
    have h := three qt qr qw nt nr nw fun a b c => (a, b, c)
    simp only [Manager.createThree, Wrt.createThree, bind_assoc, bind_ok', except_map_bind, toWrt, back] at h ⊢
    exact h
  | twr =>
    have h := three qt qw qr nt nw nr fun a b c => (a, c, b)
    simp only [Manager.createThree, Wrt.createThree, bind_assoc, bind_ok', except_map_bind, toWrt, back] at h ⊢
    exact h
  | rtw =>
    have h := three qr qt qw nr nt nw fun a b c => (b, a, c)
    simp only [Manager.createThree, Wrt.createThree, bind_assoc, bind_ok', except_map_bind, toWrt, back] at h ⊢
    exact h
  | rwt =>
    have h := three qr qw qt nr nw nt fun a b c => (c, a, b)
    simp only [Manager.createThree, Wrt.createThree, bind_assoc, bind_ok', except_map_bind, toWrt, back] at h ⊢
    exact h
  | wtr =>
    have h := three qw qt qr nw nt nr fun a b c => (b, c, a)
    simp only [Manager.createThree, Wrt.createThree, bind_assoc, bind_ok', except_map_bind, toWrt, back] at h ⊢
    exact h
  | wrt =>
    have h := three qw qr qt nw nr nt fun a b c => (c, b, a)
    simp only [Manager.createThree, Wrt.createThree, bind_assoc, bind_ok', except_map_bind, toWrt, back] at h ⊢
    exact h

theorem createThree_hasInit {env : Env} {w w' : Wrt} {ord : Order} {qt qr qw : Ask} {nt nr nw : Name} {now : Int} {x : Nat × Nat × Nat}
    (h : w.createThree env ord qt qr qw nt nr nw now = .ok (x, w')) : w'.reg.hasInit = w.reg.hasInit ∧ w'.handler = w.handler := by
  have one : ∀ {w w' : Wrt} {q : Ask} {n : Name} {id : Nat},
      (do let (id, r) ← w.reg.createAggregator env q n now; .ok (id, { w with reg := r }) : M (Nat × Wrt)) = .ok (id, w') →
      w'.reg.hasInit = w.reg.hasInit ∧ w'.handler = w.handler := by
    intro w w' q n id h
    obtain ⟨⟨id', r⟩, h1, h2⟩ := bind_inv h
    cases h2
    exact ⟨Registry.create_hasInit h1, rfl⟩
  cases ord <;>
  · obtain ⟨⟨a, w1⟩, h1, h2⟩ := bind_inv h
    obtain ⟨⟨b, w2⟩, h3, h4⟩ := bind_inv h2
    obtain ⟨⟨c, w3⟩, h5, h6⟩ := bind_inv h4
    cases h6
    have k1 := one h1
    have k2 := one h3
    have k3 := one h5
    exact ⟨k3.1.trans (k2.1.trans k1.1), k3.2.trans (k2.2.trans k1.2)⟩

theorem back_toWrt {m : Manager} {w : Wrt} (h : w.handler = m.handler) : (m.back w).toWrt = w := by
  obtain ⟨r, b⟩ := w
  cases h
  rfl

theorem compositeName_eq {m : Manager} (hi : m.reg.hasInit = false) (env : Env) (ord : Order) (qt qr qw : Ask) (nt nr nw : Name) (now : Int)
    (s : Bool) : m.compositeName ord qt qr qw nt nr nw now s =
      (m.toWrt.compositeName env ord qt qr qw nt nr nw now s).map fun x => (x.1, m.back x.2) := by
  unfold Manager.compositeName Wrt.compositeName
  rw [createThree_eq hi env, except_bind_map, except_map_bind]
  cases h : m.toWrt.createThree env ord qt qr qw nt nr nw now with
  | error e => rfl
  | ok x =>
    obtain ⟨⟨t, r, y⟩, w⟩ := x
    simp only [bind_ok']
    rw [compositePusher_eq, except_map_bind]
    have hh := (createThree_hasInit h).2
    rw [back_toWrt hh]
    have e : ∀ n, (m.back w).makeHandlerName n = w.makeHandlerName n := fun n => by
      unfold Manager.makeHandlerName Wrt.makeHandlerName
      rw [hh]
      rfl
    simp only [e]
    rfl

theorem compositeName_hasInit {env : Env} {w w' : Wrt} {ord : Order} {qt qr qw : Ask} {nt nr nw : Name} {now : Int} {s : Bool}
    {p : Option CPusher} (h : w.compositeName env ord qt qr qw nt nr nw now s = .ok (p, w')) :
    w'.reg.hasInit = w.reg.hasInit ∧ w'.handler = w.handler := by
  obtain ⟨⟨x, w1⟩, h1, h2⟩ := bind_inv h
  obtain ⟨p', _, h3⟩ := bind_inv h2
  cases h3
  exact createThree_hasInit h1

theorem compositeLoop_eq (env : Env) (nt nr nw : Name) (s : Bool) (ask : Nat → Order × Ask × Ask × Ask × Int) (l : List Name) :
    ∀ (i : Nat) (m : Manager), m.reg.hasInit = false →
    m.compositeLoop nt nr nw s ask i l =
      (m.toWrt.compositeMulti env nt nr nw s (l.mapIdx fun j p => (p, ask (i + j)))).map fun x => (x.1, m.back x.2) := by
  induction l with
  | nil => intro i m _; rfl
  | cons p l ih =>
    intro i m hi
    rw [List.mapIdx_cons]
    unfold Manager.compositeLoop Wrt.compositeMulti
    rw [compositeName_eq hi env, except_bind_map, except_map_bind]
    show (m.toWrt.compositeName env _ _ _ _ _ _ _ _ _ >>= _) = (m.toWrt.compositeName env _ _ _ _ _ _ _ _ _ >>= _)
    cases hm : m.toWrt.compositeName env (ask i).1 (ask i).2.1 (ask i).2.2.1 (ask i).2.2.2.1 (makeName p nt) (makeName p nr)
        (makeName p nw) (ask i).2.2.2.2 s with
    | error e =>
      have hm' : m.toWrt.compositeName env (ask (i + 0)).1 (ask (i + 0)).2.1 (ask (i + 0)).2.2.1 (ask (i + 0)).2.2.2.1 (Wrt.makeName p nt)
        (Wrt.makeName p nr) (Wrt.makeName p nw) (ask (i + 0)).2.2.2.2 s = .error e := hm
      rw [hm']
      rfl
    | ok x =>
      have hm' : m.toWrt.compositeName env (ask (i + 0)).1 (ask (i + 0)).2.1 (ask (i + 0)).2.2.1 (ask (i + 0)).2.2.2.1 (Wrt.makeName p nt)
        (Wrt.makeName p nr) (Wrt.makeName p nw) (ask (i + 0)).2.2.2.2 s = .ok x := hm
      rw [hm']
      obtain ⟨q, w⟩ := x
      obtain ⟨k1, k2⟩ := compositeName_hasInit hm
      simp only [bind_ok']
      rw [ih (i + 1) _ (k1.trans hi), except_bind_map, except_map_bind, back_toWrt k2]
      have e : ∀ j, i + 1 + j = i + (j + 1) := fun j => by omega
      simp only [e]
      rfl

theorem mcall_eq (m : Manager) (env : Env) (p : WPusher) (c1 c2 ts v : Int) (n : Nat) :
    m.call env p c1 c2 ts v n = (m.toWrt.call env p c1 c2 ts v n).map fun x => (x.1, m.back x.2) := by
  unfold Manager.call Wrt.call
  rw [call_eq]
  show (m.reg.call env p.rp c1 c2 ts (.one v n) >>= _) = Except.map _ (m.reg.call env p.rp c1 c2 ts (.one v n) >>= _)
  rw [except_map_bind]
  refine bind_congr fun x => ?_
  have e : ∀ r : Registry, Manager.deliver { m with reg := r } p.h = Wrt.deliver { m.toWrt with reg := r } p.h := by
    intro r
    funext d
    cases p.h <;> rfl
  simp only [e]
  rfl

theorem callOpt_eq (m : Manager) (env : Env) (p : Option WPusher) (c1 c2 ts v : Int) (n : Nat) :
    m.callOpt env p c1 c2 ts v n = (m.toWrt.callOpt env p c1 c2 ts v n).map fun x => (x.1, m.back x.2) := by
  cases p with
  | none => rfl
  | some p => exact mcall_eq m env p c1 c2 ts v n

theorem callOpt_handler {env : Env} {w w' : Wrt} {p : Option WPusher} {c1 c2 ts v : Int} {n : Nat} {l : List (Name × AggData)}
    (h : w.callOpt env p c1 c2 ts v n = .ok (l, w')) : w'.reg.hasInit = w.reg.hasInit ∧ w'.handler = w.handler := by
  cases p with
  | none => cases h; exact ⟨rfl, rfl⟩
  | some p =>
    obtain ⟨⟨out, r⟩, h1, h2⟩ := bind_inv h
    cases h2
    refine ⟨?_, rfl⟩
    have h3 : w.reg.step env (.call p.rp c1 c2 ts (.one v n)) = .ok (.handed out, r) := by
      simp only [Registry.step]
      rw [h1]
      rfl
    rcases Registry.step_hasInit h3 with h | h
    · exact h
    · cases h

theorem callC_eq (m : Manager) (env : Env) (p : CPusher) (kt kr kw : Wrt.Clks) (ts span : Int) (n : Nat) (rd wr : Int) :
    m.callC env p kt kr kw ts span n rd wr = (m.toWrt.callC env p kt kr kw ts span n rd wr).map fun x => (x.1, m.back x.2) := by
  unfold Manager.callC Wrt.callC
  rw [callOpt_eq, except_bind_map, except_map_bind]
  cases h1 : m.toWrt.callOpt env p.time kt.1 kt.2 ts span n with
  | error e => rfl
  | ok x =>
    obtain ⟨l1, w1⟩ := x
    have k1 := (callOpt_handler h1).2
    simp only [bind_ok']
    rw [callOpt_eq, except_bind_map, except_map_bind, back_toWrt k1]
    cases h2 : w1.callOpt env p.read kr.1 kr.2 ts rd (if p.summary then toSize rd else n) with
    | error e => rfl
    | ok y =>
      obtain ⟨l2, w2⟩ := y
      have k2 := (callOpt_handler h2).2.trans k1
      simp only [bind_ok']
      rw [callOpt_eq, except_bind_map, except_map_bind]
      have e : ((m.back w1).back w2).toWrt = w2 := back_toWrt k2
      rw [e]
      cases w2.callOpt env p.write kw.1 kw.2 ts wr (if p.summary then toSize wr else n) <;> rfl

/-- The call is a `force_pop` that finds an aggregator with nothing in it. -/
def MFindsNothing (env : Env) (r : Registry) (op : MOp) : Prop := ∃ rop, op = .reg rop ∧ RFindsNothing env r rop

/-- Call by call. -/
theorem C155_manager {m : Manager} (hi : m.reg.hasInit = false) (env : Env) (op : MOp) :
    (MFindsNothing env m.reg op → m.step env op = .error .ub) ∧
    (¬ MFindsNothing env m.reg op →
      m.step env op = (nowStep env m.prefixes m.toWrt op).map fun x => (x.1, x.2.1, m.back x.2.2)) := by
  constructor
  · rintro ⟨rop, rfl, h⟩
    simp only [Manager.step, (C155_registry hi env rop).1 h]
    rfl
  · intro h
    cases op with
    | reg op =>
      simp only [Manager.step, nowStep, (C155_registry hi env op).2 fun h' => h ⟨op, rfl, h'⟩]
      show (m.reg.step env op.now >>= _) = Except.map _ (m.reg.step env op.now >>= _)
      cases m.reg.step env op.now <;> rfl
    | meterId id =>
      simp only [Manager.step, nowStep, meterId_eq]
      cases m.toWrt.meterId id <;> rfl
    | meterName q n t =>
      simp only [Manager.step, nowStep, meterName_eq hi env]
      cases m.toWrt.meterName env q n t <;> rfl
    | multi n ask =>
      simp only [Manager.step, nowStep, Manager.multiMeter, multiLoop_eq env n ask m.prefixes 0 m hi, Nat.zero_add]
      cases m.toWrt.multiMeter env n (m.prefixes.mapIdx fun i p => (p, (ask i).1, (ask i).2)) <;> rfl
    | compositeId t r x s =>
      have e : m.compositeId t r x s = m.toWrt.compositeId t r x s := rfl
      simp only [Manager.step, nowStep, e]
      cases m.toWrt.compositeId t r x s <;> rfl
    | compositeName ord qt qr qw nt nr nw t s =>
      simp only [Manager.step, nowStep, compositeName_eq hi env]
      cases m.toWrt.compositeName env ord qt qr qw nt nr nw t s <;> rfl
    | compositeMulti nt nr nw s ask =>
      simp only [Manager.step, nowStep, Manager.compositeMulti, compositeLoop_eq env nt nr nw s ask m.prefixes 0 m hi, Nat.zero_add]
      cases m.toWrt.compositeMulti env nt nr nw s (m.prefixes.mapIdx fun i p => (p, ask i)) <;> rfl
    | call p c1 c2 ts v n =>
      simp only [Manager.step, nowStep, mcall_eq]
      cases m.toWrt.call env p c1 c2 ts v n <;> rfl
    | callC p kt kr kw ts span n rd wr =>
      simp only [Manager.step, nowStep, callC_eq]
      cases m.toWrt.callC env p kt kr kw ts span n rd wr <;> rfl

/-! ### Histories -/

theorem multiMeter_hasInit {env : Env} {n : Name} (l : List (Name × Ask × Int)) : ∀ {w w' : Wrt} {ps : List (Option WPusher)},
    w.multiMeter env n l = .ok (ps, w') → w'.reg.hasInit = w.reg.hasInit ∧ w'.handler = w.handler := by
  induction l with
  | nil => intro w w' ps h; cases h; exact ⟨rfl, rfl⟩
  | cons x l ih =>
    intro w w' ps h
    obtain ⟨⟨p, w1⟩, h1, h2⟩ := bind_inv h
    obtain ⟨⟨ps', w2⟩, h3, h4⟩ := bind_inv h2
    cases h4
    obtain ⟨k1, k2⟩ := ih h3
    have k3 : w1.handler = w.handler := by
      obtain ⟨⟨id, r⟩, _, h5⟩ := bind_inv h1
      obtain ⟨_, _, h6⟩ := bind_inv h5
      cases h6
      rfl
    exact ⟨k1.trans (meterName_hasInit h1), k2.trans k3⟩

theorem compositeMulti_hasInit {env : Env} {nt nr nw : Name} {s : Bool} (l : List (Name × Order × Ask × Ask × Ask × Int)) :
    ∀ {w w' : Wrt} {ps : List (Option CPusher)}, w.compositeMulti env nt nr nw s l = .ok (ps, w') →
      w'.reg.hasInit = w.reg.hasInit ∧ w'.handler = w.handler := by
  induction l with
  | nil => intro w w' ps h; cases h; exact ⟨rfl, rfl⟩
  | cons x l ih =>
    intro w w' ps h
    obtain ⟨⟨p, w1⟩, h1, h2⟩ := bind_inv h
    obtain ⟨⟨ps', w2⟩, h3, h4⟩ := bind_inv h2
    cases h4
    obtain ⟨k1, k2⟩ := ih h3
    obtain ⟨k3, k4⟩ := compositeName_hasInit h1
    exact ⟨k1.trans k3, k2.trans k4⟩

/-- No call of the older classes sets an initializer or changes the handler. -/
theorem nowStep_keeps {env : Env} {ps : List Name} {w w' : Wrt} {op : MOp} {x : MResp} {l : List (Name × AggData)}
    (h : nowStep env ps w op = .ok (x, l, w')) : w'.reg.hasInit = w.reg.hasInit ∧ w'.handler = w.handler := by
  cases op with
  | reg op =>
    obtain ⟨⟨y, r⟩, h1, h2⟩ := bind_inv h
    cases h2
    refine ⟨?_, rfl⟩
    rcases Registry.step_hasInit h1 with h | h
    · exact h
    · cases op <;> cases h
  | meterId id =>
    obtain ⟨p, _, h2⟩ := bind_inv h
    cases h2
    exact ⟨rfl, rfl⟩
  | meterName q n t =>
    obtain ⟨⟨p, w1⟩, h1, h2⟩ := bind_inv h
    cases h2
    refine ⟨meterName_hasInit h1, ?_⟩
    obtain ⟨⟨id, r⟩, _, h5⟩ := bind_inv h1
    obtain ⟨_, _, h6⟩ := bind_inv h5
    cases h6
    rfl
  | multi n ask =>
    obtain ⟨⟨p, w1⟩, h1, h2⟩ := bind_inv h
    cases h2
    exact multiMeter_hasInit _ h1
  | compositeId t r y s =>
    obtain ⟨p, _, h2⟩ := bind_inv h
    cases h2
    exact ⟨rfl, rfl⟩
  | compositeName ord qt qr qw nt nr nw t s =>
    obtain ⟨⟨p, w1⟩, h1, h2⟩ := bind_inv h
    cases h2
    exact compositeName_hasInit h1
  | compositeMulti nt nr nw s ask =>
    obtain ⟨⟨p, w1⟩, h1, h2⟩ := bind_inv h
    cases h2
    exact compositeMulti_hasInit _ h1
  | call p c1 c2 ts v n =>
    obtain ⟨⟨l', w1⟩, h1, h2⟩ := bind_inv h
    cases h2
    exact callOpt_handler (p := some p) h1
  | callC p kt kr kw ts span n rd wr =>
    obtain ⟨⟨l', w'⟩, h1, h2⟩ := bind_inv h
    cases h2
    obtain ⟨⟨l1, w1⟩, h3, h4⟩ := bind_inv h1
    obtain ⟨⟨l2, w2⟩, h5, h6⟩ := bind_inv h4
    obtain ⟨⟨l3, w3⟩, h7, h8⟩ := bind_inv h6
    cases h8
    have k1 := callOpt_handler h3
    have k2 := callOpt_handler h5
    have k3 := callOpt_handler h7
    exact ⟨k3.1.trans (k2.1.trans k1.1), k3.2.trans (k2.2.trans k1.2)⟩

/-- Histories from any state. -/
theorem run_iff (env : Env) (ps : List Name) (ops : List MOp) : ∀ (m m' : Manager) (t t' : Told), m.reg.hasInit = false → m.prefixes = ps →
    (mexecAll env (t, m) ops = .ok (t', m') ↔
      ∃ w', nowExecAll env ps (t, m.toWrt) ops = .ok (t', w') ∧ m' = m.back w' ∧
        ∀ pre op post t1 w1, ops = pre ++ op :: post → nowExecAll env ps (t, m.toWrt) pre = .ok (t1, w1) →
          ¬ MFindsNothing env w1.reg op) := by
  induction ops with
  | nil =>
    intro m m' t t' _ _
    constructor
    · intro h
      cases h
      refine ⟨m.toWrt, rfl, rfl, fun pre op post t1 w1 h => ?_⟩
      cases pre <;> cases h
    · rintro ⟨w', h, h2, _⟩
      cases h
      rw [h2]
      rfl
  | cons op ops ih =>
    intro m m' t t' hi hp
    obtain ⟨s1, s2⟩ := C155_manager hi env op
    rw [hp] at s2
    have go : ∀ {x : MResp} {l : List (Name × AggData)} {w1 : Wrt}, nowStep env ps m.toWrt op = .ok (x, l, w1) →
        (m.back w1).reg.hasInit = false ∧ (m.back w1).toWrt = w1 ∧ (m.back w1).prefixes = ps := fun h =>
      ⟨(nowStep_keeps h).1.trans hi, back_toWrt (nowStep_keeps h).2, hp⟩
    constructor
    · intro h
      obtain ⟨⟨t1, m1⟩, h1, h2⟩ := bind_inv h
      obtain ⟨⟨x, l, m1'⟩, h3, h4⟩ := bind_inv h1
      cases h4
      change m.step env op = _ at h3
      have hn : ¬ MFindsNothing env m.reg op := by
        intro hf
        rw [s1 hf] at h3
        cases h3
      rw [s2 hn] at h3
      cases hs : nowStep env ps m.toWrt op with
      | error e => rw [hs] at h3; cases h3
      | ok y =>
        obtain ⟨x', l', w1⟩ := y
        rw [hs] at h3
        cases h3
        obtain ⟨g1, g2, g3⟩ := go hs
        obtain ⟨w', k1, k2, k3⟩ := (ih _ _ _ _ g1 g3).1 h2
        rw [g2] at k1 k3
        have e : nowExec env ps (t, m.toWrt) op = .ok ({ answers := t.answers ++ [x'], handed := t.handed ++ l' }, w1) := by
          unfold nowExec
          rw [hs]
          rfl
        refine ⟨w', ?_, k2, ?_⟩
        · show (nowExec env ps (t, m.toWrt) op >>= fun s => nowExecAll env ps s ops) = _
          rw [e]
          exact k1
        · intro pre op' post t2 w2 e' h5
          cases pre with
          | nil =>
            cases e'
            cases h5
            exact hn
          | cons op1 pre =>
            cases e'
            obtain ⟨s1', h6, h7⟩ := bind_inv h5
            rw [e] at h6
            cases h6
            exact k3 pre op' post t2 w2 rfl h7
    · rintro ⟨w', h, h2, hall⟩
      obtain ⟨⟨t1, w1⟩, h1, h3⟩ := bind_inv h
      have hn : ¬ MFindsNothing env m.reg op := hall [] op ops t m.toWrt rfl rfl
      obtain ⟨⟨x, l, w1'⟩, h4, h5⟩ := bind_inv h1
      cases h5
      change nowStep env ps m.toWrt op = _ at h4
      obtain ⟨g1, g2, g3⟩ := go h4
      have e : mexec env (t, m) op = .ok ({ answers := t.answers ++ [x], handed := t.handed ++ l }, m.back w1) := by
        unfold mexec
        simp only
        rw [s2 hn, h4]
        rfl
      show (mexec env (t, m) op >>= fun s => mexecAll env s ops) = _
      rw [e]
      refine (ih _ _ _ _ g1 g3).2 ⟨w', ?_, h2, ?_⟩
      · rw [g2]
        exact h3
      · intro pre op' post t2 w2 e' h5
        rw [g2] at h5
        refine hall (op :: pre) op' post t2 w2 (by rw [e']; rfl) ?_
        show (nowExec env ps (t, m.toWrt) op >>= fun s => nowExecAll env ps s pre) = _
        rw [h1]
        exact h5

/-- Histories without `force_pop`, from any state. -/
theorem run_eq (env : Env) (ps : List Name) (ops : List MOp)
    (hf : ∀ op ∈ ops, (∀ id, op ≠ .reg (.forcePop id)) ∧ ∀ id, op ≠ .reg (.direct id .forcePop)) :
    ∀ (m : Manager) (t : Told), m.reg.hasInit = false → m.prefixes = ps →
    mexecAll env (t, m) ops = (nowExecAll env ps (t, m.toWrt) ops).map fun x => (x.1, m.back x.2) := by
  induction ops with
  | nil => intro m t _ _; rfl
  | cons op ops ih =>
    intro m t hi hp
    have hn : ¬ MFindsNothing env m.reg op := by
      rintro ⟨rop, rfl, id, c, r', _, h | h⟩
      · rw [h.1] at hf
        exact (hf _ (.head _)).1 id rfl
      · rw [h.1] at hf
        exact (hf _ (.head _)).2 id rfl
    have s2 := (C155_manager hi env op).2 hn
    rw [hp] at s2
    show (mexec env (t, m) op >>= fun s => mexecAll env s ops) =
      Except.map _ (nowExec env ps (t, m.toWrt) op >>= fun s => nowExecAll env ps s ops)
    unfold mexec nowExec
    simp only
    rw [s2]
    cases hs : nowStep env ps m.toWrt op with
    | error e => rfl
    | ok y =>
      obtain ⟨x, l, w1⟩ := y
      obtain ⟨k1, k2⟩ := nowStep_keeps hs
      have := ih (fun op h => hf op (.tail _ h)) (m.back w1) { answers := t.answers ++ [x], handed := t.handed ++ l } (k1.trans hi) hp
      rw [back_toWrt k2] at this
      exact this

end Manager
end Legacy

open Legacy (Manager ROp)
open Legacy.Manager (MOp Told mexecAll nowExecAll)

/-! ### C155 -/

/-- The prefixes a meter manager works with. -/
def managerPrefixes (prefixes : List Name) : List Name := if prefixes = [] then [[]] else prefixes

/-- The claim: a history of calls of a meter manager tells its client what the same calls of a `wrtstat` object do, if those are given the
prefixes and there is no initializer. -/
def C155_FullClaim : Prop :=
  ∀ (env : Env) (opt : WOpts) (prefixes : List Name) (ops : List MOp), opt.hasInit = false →
    (mexecAll env ({}, Manager.new opt prefixes) ops).map Prod.fst =
      (nowExecAll env (managerPrefixes prefixes) ({}, Wrt.new opt) ops).map Prod.fst

/-- Options with a handler. -/
def exMOpt : WOpts := { handler := true, step := 10 }

/-- `force_pop` of a meter without events. -/
def exMEmpty : List MOp := [.meterName {} ['a'] 5, .reg (.forcePop 1)]

theorem C155_witness : mexecAll exactEnv ({}, Manager.new exMOpt []) exMEmpty = .error .ub ∧
    (nowExecAll exactEnv [[]] ({}, Wrt.new exMOpt) exMEmpty).toOption.isSome = true := by
  constructor <;> decide +kernel

theorem C155_refuted : ¬ C155_FullClaim := by
  intro h
  obtain ⟨h1, h2⟩ := C155_witness
  have h3 := h exactEnv exMOpt [] exMEmpty rfl
  rw [h1] at h3
  change _ = (nowExecAll exactEnv [[]] ({}, Wrt.new exMOpt) exMEmpty).map Prod.fst at h3
  cases h4 : nowExecAll exactEnv [[]] ({}, Wrt.new exMOpt) exMEmpty with
  | error e => rw [h4] at h2; cases h2
  | ok x => rw [h4] at h3; cases h3

/-- Whole histories: they run iff they run now and no `force_pop` finds an aggregator with nothing in it, and then the client is told the
same. -/
theorem C155_exact_partial (env : Env) (opt : WOpts) (prefixes : List Name) (ops : List MOp) (t : Told) (h0 : opt.hasInit = false) :
    (∃ m, mexecAll env ({}, Manager.new opt prefixes) ops = .ok (t, m)) ↔
      (∃ w, nowExecAll env (managerPrefixes prefixes) ({}, Wrt.new opt) ops = .ok (t, w)) ∧
      ∀ pre op post t1 w1, ops = pre ++ .reg op :: post →
        nowExecAll env (managerPrefixes prefixes) ({}, Wrt.new opt) pre = .ok (t1, w1) → ¬ Legacy.RFindsNothing env w1.reg op := by
  have hw : (Manager.new opt prefixes).toWrt = Wrt.new opt := by
    unfold Legacy.Manager.toWrt Manager.new Wrt.new Registry.new
    rw [h0]
  have key := fun m' => Manager.run_iff env (managerPrefixes prefixes) ops (Manager.new opt prefixes) m' {} t rfl rfl
  rw [hw] at key
  constructor
  · rintro ⟨m, h⟩
    obtain ⟨w, k1, _, k2⟩ := (key m).1 h
    exact ⟨⟨w, k1⟩, fun pre op post t1 w1 e h1 hf => k2 pre _ post t1 w1 e h1 ⟨op, rfl, hf⟩⟩
  · rintro ⟨⟨w, h⟩, hall⟩
    refine ⟨_, (key _).2 ⟨w, h, rfl, ?_⟩⟩
    rintro pre op post t1 w1 e h1 ⟨rop, rfl, hf⟩
    exact hall pre rop post t1 w1 e h1 hf

/-- Without `force_pop` there is no difference at all, faults included. -/
theorem C155_polled_partial (env : Env) (opt : WOpts) (prefixes : List Name) (ops : List MOp) (h0 : opt.hasInit = false)
    (hf : ∀ op ∈ ops, (∀ id, op ≠ .reg (.forcePop id)) ∧ ∀ id, op ≠ .reg (.direct id .forcePop)) :
    (mexecAll env ({}, Manager.new opt prefixes) ops).map Prod.fst =
      (nowExecAll env (managerPrefixes prefixes) ({}, Wrt.new opt) ops).map Prod.fst := by
  have hw : (Manager.new opt prefixes).toWrt = Wrt.new opt := by
    unfold Legacy.Manager.toWrt Manager.new Wrt.new Registry.new
    rw [h0]
  have := Manager.run_eq env (managerPrefixes prefixes) ops hf (Manager.new opt prefixes) {} rfl rfl
  rw [this, hw]
  cases nowExecAll env (managerPrefixes prefixes) ({}, Wrt.new opt) ops <;> rfl

/-- A meter function of the first meter. -/
def exMPusher : WPusher := { rp := { ref := 0, p := { handler := true, token := true } }, h := .byId 1 }

/-- Two prefixes, a composite meter, an event and one in a later window. -/
def exMOps : List MOp :=
  [.multi ['a'] fun _ => ({}, 5), .compositeName .trw {} {} {} ['t'] ['r'] [] 5 false, .call exMPusher 5 5 5 7 1,
    .call exMPusher 15 15 15 8 2, .reg (.forcePop 1)]

/-- Run in both: a record handed over under the first prefix, then one popped. -/
example : ((mexecAll exactEnv ({}, Manager.new exMOpt [['x'], ['y']]) exMOps).toOption.map fun s =>
      (s.1.answers.length, s.1.handed.map fun p => (p.1, p.2.count, p.2.data))) = some (5, [(['x', 'a'], 1, [7])]) ∧
    (mexecAll exactEnv ({}, Manager.new exMOpt [['x'], ['y']]) exMOps).toOption.map Prod.fst =
      (nowExecAll exactEnv [['x'], ['y']] ({}, Wrt.new exMOpt) exMOps).toOption.map Prod.fst := by
  constructor <;> decide +kernel

/-- Only at the end they differ: the current class then hands over the window not yet closed, the older one hands over nothing. -/
theorem C155_end : ∃ t m w, mexecAll exactEnv ({}, Manager.new exMOpt [['x'], ['y']]) (exMOps.take 4) = .ok (t, m) ∧
    nowExecAll exactEnv [['x'], ['y']] ({}, Wrt.new exMOpt) (exMOps.take 4) = .ok (t, w) ∧ m.destroy = [] ∧
    (w.destroy exactEnv fun _ => 16).toOption.map (List.map fun p => (p.1, p.2.count)) = some [(['x', 'a'], 2)] := by
  have h : (nowExecAll exactEnv [['x'], ['y']] ({}, Wrt.new exMOpt) (exMOps.take 4)).toOption.isSome = true := by decide +kernel
  have h2 : (mexecAll exactEnv ({}, Manager.new exMOpt [['x'], ['y']]) (exMOps.take 4)).toOption.isSome = true := by decide +kernel
  have h3 : ((nowExecAll exactEnv [['x'], ['y']] ({}, Wrt.new exMOpt) (exMOps.take 4)).toOption.bind fun s =>
      (s.2.destroy exactEnv fun _ => 16).toOption.map (List.map fun p => (p.1, p.2.count))) = some [(['x', 'a'], 2)] := by decide +kernel
  cases e2 : mexecAll exactEnv ({}, Manager.new exMOpt [['x'], ['y']]) (exMOps.take 4) with
  | error e => rw [e2] at h2; cases h2
  | ok s =>
    obtain ⟨t, m⟩ := s
    obtain ⟨⟨w, k⟩, _⟩ := (C155_exact_partial exactEnv exMOpt [['x'], ['y']] (exMOps.take 4) t rfl).1 ⟨m, e2⟩
    change nowExecAll exactEnv [['x'], ['y']] ({}, Wrt.new exMOpt) (exMOps.take 4) = _ at k
    rw [k] at h3
    exact ⟨t, m, w, rfl, k, rfl, h3⟩

end Wrtstat
