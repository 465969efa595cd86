/-
C171: a multi aggregator does not fault, whatever its clocks show, and threads that share it keep the accounts of C162.
-/
import Verif.Props.Account
import Verif.Props.MultiMt
import Verif.Props.RegistryTotal

namespace Wrtstat

set_option autoImplicit false

open Multi Single
open Aggregator

/-! ### One aggregator -/

/-- The aggregator agrees with some desk of C161, with values between `m` and `M`. -/
def Fits (env : Env) (opt : AggregatorOpts) (m M : Int) (a : Aggregator) : Prop := Registry.Fit env { toAggregatorOpts := opt } m M a

section

variable {env : Env} {opt : AggregatorOpts} {m M : Int}

theorem fits_new (hs : 0 < opt.step) {clk rand ts : Int} {a : Aggregator} (h : Aggregator.new opt clk rand ts = .ok a) : Fits env opt m M a := by
  obtain ⟨a', h1, h2⟩ := Registry.fit_new (env := env) (opt := { toAggregatorOpts := opt }) hs m M clk rand ts
  simp only at h1
  rw [h] at h1
  cases h1
  exact h2

theorem fits_push {a : Aggregator} (hs : 0 < opt.step) (B : Reducer.Bounds env m M) (h : Fits env opt m M a) {c1 c2 ts : Int} {x : AddArg}
    {handler : Bool} (hv : ∀ v ∈ x.values, m ≤ v ∧ v ≤ M) :
    ∃ ok out a', a.push env c1 c2 ts x handler = .ok (ok, out, a') ∧ Fits env opt m M a' :=
  Registry.Fit.push (opt := { toAggregatorOpts := opt }) hs B h c1 c2 ts x handler hv

theorem fits_popOne {a : Aggregator} (hs : 0 < opt.step) (B : Reducer.Bounds env m M) (h : Fits env opt m M a) (force : Bool) :
    ∃ d a', AggMap.popOne env force a = .ok (d, a') ∧ Fits env opt m M a' := by
  cases force with
  | false => exact ⟨a.pop.1, a.pop.2, rfl, Registry.Fit.pop (opt := { toAggregatorOpts := opt }) hs B h⟩
  | true => exact Registry.Fit.forcePop (opt := { toAggregatorOpts := opt }) hs B h

/-! ### The object -/

namespace AggMap

/-- Every aggregator of the map fits. -/
def FitMap (env : Env) (opt : AggregatorOpts) (m M : Int) (s : AggMap) : Prop :=
  ∀ n a, s.lookup n = some a → Fits env opt m M a

theorem popLoop_fits (hs : 0 < opt.step) (B : Reducer.Bounds env m M) (force : Bool) (ns : List Name) :
    ∀ {s : AggMap}, FitMap env opt m M s → ∃ l s', popLoop env force true ns s = .ok (l, s') := by
  induction ns with
  | nil => intro s _; exact ⟨[], s, rfl⟩
  | cons n ns ih =>
    intro s ht
    unfold popLoop
    cases hl : s.lookup n with
    | none => exact ih ht
    | some a =>
      obtain ⟨d, a', e, ht'⟩ := fits_popOne hs B (ht n a hl) force
      obtain ⟨l, s', e'⟩ := ih (s := s.put n a') (by
        intro n' a'' h
        rw [lookup_put] at h
        by_cases hn : n' = n
        · rw [if_pos hn] at h
          cases h
          exact ht'
        · rw [if_neg hn] at h
          exact ht n' a'' h)
      simp only [e, bind_ok', Bool.true_eq_false, and_false, if_false, e']
      exact ⟨_, _, rfl⟩

end AggMap

namespace Multi

open AggMap (FitMap)

theorem popShards_fits (hs : 0 < opt.step) (B : Reducer.Bounds env m M) (force : Bool) (ord : IterOrder)
    (ss : List AggMap) (ht : ∀ s ∈ ss, FitMap env opt m M s) :
    ∃ l ss', popShards env force true ord ss = .ok (l, ss') := by
  induction ss with
  | nil => exact ⟨_, _, rfl⟩
  | cons s ss ih =>
    obtain ⟨l, s', e⟩ := AggMap.popLoop_fits hs B force (ord.order (s.map Prod.fst)) (ht s (by simp))
    obtain ⟨l', ss', e'⟩ := ih fun s hs => ht s (by simp [hs])
    unfold popShards AggMap.popAll
    simp only [e, bind_ok', e']
    exact ⟨_, _, rfl⟩

/-- Every aggregator fits. -/
def FitM (env : Env) (opt : AggregatorOpts) (m M : Int) (x : Multi) : Prop :=
  ∀ n a, x.find n = some a → Fits env opt m M a
/-- The values of an operation lie in `[m, M]`, and it has a handler. -/
def MOp.apt (m M : Int) : MOp → Prop
  | .push p h => h = true ∧ ∀ v ∈ p.v.data, m ≤ v ∧ v ≤ M
  | .multiPush ps h => h = true ∧ ∀ p ∈ ps, ∀ v ∈ p.v.data, m ≤ v ∧ v ≤ M
  | .del _ => True
  | .pushout _ h _ => h = true

theorem push_fits {x : Multi} (hs : 0 < x.opt.step) (hz : 0 < x.opt.hashSize) (B : Reducer.Bounds env m M) (hi : MInv x)
    (ht : FitM env x.opt.toAggregatorOpts m M x) (p : PushArg)
    (hv : ∀ v ∈ (AddArg.reduced p.v).values, m ≤ v ∧ v ≤ M) :
    ∃ ok l x', x.push env p.name p.v p.clk p.rand p.clk1 p.clk2 true = .ok (ok, l, x') ∧ MInv x' ∧ x'.opt = x.opt ∧
      FitM env x.opt.toAggregatorOpts m M x' := by
  have hlt : x.hash p.name % x.opt.hashSize < x.shards.length := by rw [hi.len]; exact Nat.mod_lt _ hz
  obtain ⟨a, ea, hta⟩ : ∃ a, AggMap.orNew x.opt ((x.shards[x.hash p.name % x.opt.hashSize]).lookup p.name) p.clk p.rand p.v.ts = .ok a ∧
      Fits env x.opt.toAggregatorOpts m M a := by
    cases hl : (x.shards[x.hash p.name % x.opt.hashSize]).lookup p.name with
    | some a => exact ⟨a, rfl, ht _ _ (hi.shard_find (List.getElem_mem hlt) hl)⟩
    | none =>
      obtain ⟨a, ea⟩ := aggregator_new_total (opt := x.opt.toAggregatorOpts) hs p.clk p.rand p.v.ts
      exact ⟨a, ea, fits_new hs ea⟩
  obtain ⟨ok, out, a', ep, hta'⟩ := fits_push (c1 := p.clk1) (c2 := p.clk2) (handler := true) (ts := p.v.ts) hs B hta hv
  have e : ∃ l x', x.push env p.name p.v p.clk p.rand p.clk1 p.clk2 true = .ok (ok, l, x') := by
    unfold Multi.push getPos shard AggMap.push
    rw [if_neg (by omega)]
    simp only [bind_ok', List.getElem?_eq_getElem hlt, ea, ep, Bool.true_eq_false, and_false, if_false]
    exact ⟨_, _, rfl⟩
  obtain ⟨l, x', e⟩ := e
  obtain ⟨k1, k2, a1, out1, a1', j1, j2, j3, j4⟩ := push_spec (p := p) hi e
  refine ⟨ok, l, x', e, k1, k2, ?_⟩
  intro n b hb
  rw [j4] at hb
  by_cases hn : n = p.name
  · rw [if_pos hn] at hb
    cases hb
    rw [hi.find_eq rfl (List.getElem?_eq_getElem hlt), ea] at j1
    cases j1
    rw [ep] at j2
    cases j2
    exact hta'
  · rw [if_neg hn] at hb
    exact ht n b hb

theorem multiPush_fits (B : Reducer.Bounds env m M) (ps : List PushArg) :
    ∀ {x : Multi}, 0 < x.opt.step → 0 < x.opt.hashSize → MInv x → FitM env x.opt.toAggregatorOpts m M x →
    (∀ p ∈ ps, ∀ v ∈ (AddArg.reduced p.v).values, m ≤ v ∧ v ≤ M) →
    ∃ l x', multiPush env true ps x = .ok (l, x') ∧ MInv x' ∧ x'.opt = x.opt ∧ FitM env x.opt.toAggregatorOpts m M x' := by
  induction ps with
  | nil => intro x _ _ hi ht _; exact ⟨_, _, rfl, hi, rfl, ht⟩
  | cons p ps ih =>
    intro x hs hz hi ht hp
    obtain ⟨ok, l, x1, e, hi1, ho1, ht1⟩ := push_fits hs hz B hi ht p (hp p (by simp))
    obtain ⟨l', x2, e', hi2, ho2, ht2⟩ := ih (by rw [ho1]; exact hs) (by rw [ho1]; exact hz) hi1 (by rw [ho1]; exact ht1)
      (fun q hq => hp q (by simp [hq]))
    rw [ho1] at ht2
    refine ⟨l ++ l', x2, ?_, hi2, ho2.trans ho1, ht2⟩
    simp only [multiPush, e, bind_ok', e']

theorem mexec_fits {o : MObs} {op : MOp} (hs : 0 < o.m.opt.step) (hz : 0 < o.m.opt.hashSize) (B : Reducer.Bounds env m M)
    (hi : MInv o.m) (ht : FitM env o.m.opt.toAggregatorOpts m M o.m) (hop : op.apt m M) :
    ∃ o', mexec env o op = .ok o' ∧ MInv o'.m ∧ o'.m.opt = o.m.opt ∧ FitM env o.m.opt.toAggregatorOpts m M o'.m := by
  cases op with
  | push p h =>
    obtain ⟨rfl, hv⟩ := hop
    obtain ⟨ok, l, x1, e, k⟩ := push_fits hs hz B hi ht p hv
    simp only [mexec, e, bind_ok']
    exact ⟨_, rfl, k⟩
  | multiPush ps h =>
    obtain ⟨rfl, hp⟩ := hop
    obtain ⟨l, x1, e, k⟩ := multiPush_fits B ps hs hz hi ht hp
    simp only [mexec, e, bind_ok']
    exact ⟨_, rfl, k⟩
  | del n =>
    have hlt : o.m.hash n % o.m.opt.hashSize < o.m.shards.length := by rw [hi.len]; exact Nat.mod_lt _ hz
    have e : ∃ b x', o.m.del n = .ok (b, x') := by
      unfold Multi.del getPos shard
      rw [if_neg (by omega)]
      simp only [bind_ok', List.getElem?_eq_getElem hlt]
      exact ⟨_, _, rfl⟩
    obtain ⟨b, x', e⟩ := e
    obtain ⟨k1, k2, _, k4⟩ := del_spec hi e
    simp only [mexec, e, bind_ok']
    refine ⟨_, rfl, k1, k2, ?_⟩
    intro n' a ha
    simp only at ha
    rw [k4] at ha
    by_cases hn : n' = n
    · rw [if_pos hn] at ha; cases ha
    · rw [if_neg hn] at ha
      exact ht n' a ha
  | pushout force h ord =>
    cases hop
    obtain ⟨l, ss, e⟩ := popShards_fits hs B force ord o.m.shards
      (fun s hs n a hl => ht n a (hi.shard_find hs hl))
    have e' : o.m.popAll env force true ord = .ok (l, { o.m with shards := ss }) := by
      simp only [Multi.popAll, e, bind_ok']
    obtain ⟨k1, k2, k3⟩ := popAll_spec hi hz e'
    simp only [mexec, e', bind_ok']
    refine ⟨_, rfl, k1, k2, ?_⟩
    intro n a ha
    simp only at ha
    cases hf : o.m.find n with
    | none =>
      rw [((k3 n).1 hf).1] at ha
      cases ha
    | some a0 =>
      obtain ⟨d, a', j1, j2, _⟩ := (k3 n).2 a0 hf
      rw [j2] at ha
      cases ha
      obtain ⟨d1, a1, j3, j4⟩ := fits_popOne hs B (ht n a0 hf) force
      rw [j3] at j1
      cases j1
      exact j4

theorem mexecAll_fits (B : Reducer.Bounds env m M) (ops : List MOp) :
    ∀ {o : MObs}, 0 < o.m.opt.step → 0 < o.m.opt.hashSize → MInv o.m → FitM env o.m.opt.toAggregatorOpts m M o.m →
    (∀ op ∈ ops, op.apt m M) → ∃ o', mexecAll env o ops = .ok o' := by
  induction ops with
  | nil => intro o _ _ _ _ _; exact ⟨o, rfl⟩
  | cons op ops ih =>
    intro o hs hz hi ht hop
    obtain ⟨o1, e, hi1, ho1, ht1⟩ := mexec_fits hs hz B hi ht (hop op (by simp))
    obtain ⟨o', e'⟩ := ih (o := o1) (by rw [ho1]; exact hs) (by rw [ho1]; exact hz) hi1 (by rw [ho1]; exact ht1)
      (fun x hx => hop x (by simp [hx]))
    refine ⟨o', ?_⟩
    unfold mexecAll
    rw [List.foldlM_cons, e]
    exact e'
end Multi

end

/-! ### Sections -/

section

variable {env : Env} {n : Nat} {opt : MultiOpts} {hash : Name → Nat}

/-- Values in `[m, M]`, and a handler. -/
def MuSec.apt (m M : Int) (sec : MuSec n) : Prop := ∀ op ∈ sec.op, op.apt m M

/-- The shape of the shards. -/
def ShFit [NeZero n] (env : Env) (opt : AggregatorOpts) (hash : Name → Nat) (m M : Int) (g : Fin n → AggMap) : Prop :=
  ∀ k, ((g k).map Prod.fst).Nodup ∧ (∀ name ∈ (g k).map Prod.fst, Fin.ofNat n (hash name) = k) ∧ AggMap.FitMap env opt m M (g k)

/-- A section of the shard of the name, or of another shard. -/
theorem sec_fits [NeZero n] {m M : Int} {g : Fin n → AggMap} (hs : 0 < opt.step) (B : Reducer.Bounds env m M)
    (hi : ShFit env opt.toAggregatorOpts hash m M g) (sec : MuSec n) (hf : sec.apt m M) :
    ∃ r s', (g (sec.pos hash)).sec env opt sec = .ok (r, s') ∧
      ShFit env opt.toAggregatorOpts hash m M (Function.update g (sec.pos hash) s') ∧
      ∀ name dl an no, Agrees name ((g (Fin.ofNat n (hash name))).lookup name) dl an no →
        ∃ no', nexecAll env opt.toAggregatorOpts no (sec.forName hash name) = .ok no' ∧
          Agrees name ((Function.update g (sec.pos hash) s' (Fin.ofNat n (hash name))).lookup name) (dl ++ r.out)
            (an ++ sec.answer r) no' := by
  obtain ⟨hn, hh, ht⟩ := hi (sec.pos hash)
  have hinv := one_inv (opt := opt) hn
  have htm : FitM env opt.toAggregatorOpts m M (oneShard opt (g (sec.pos hash))) := by
    intro name a ha
    rw [one_find] at ha
    exact ht name a ha
  -- the section runs
  have hrun : ∃ r s', (g (sec.pos hash)).sec env opt sec = .ok (r, s') := by
    have := mexecAll_fits (env := env) B sec.op (o := { m := oneShard opt (g (sec.pos hash)) }) hs Nat.one_pos hinv htm hf
    obtain ⟨o, ho⟩ := this
    rw [one_sec] at ho
    cases hx : (g (sec.pos hash)).sec env opt sec with
    | error e => rw [hx] at ho; cases ho
    | ok x => exact ⟨x.1, x.2, rfl⟩
  obtain ⟨r, s', hsec⟩ := hrun
  have hone : ∀ dl an, mexecAll env { m := oneShard opt (g (sec.pos hash)), delivered := dl, answers := an } sec.op =
      .ok { m := oneShard opt s', delivered := dl ++ r.out, answers := an ++ sec.answer r } := by
    intro dl an
    rw [one_sec, hsec]
    rfl
  -- the shape
  have hkeys : ∀ k ∈ s'.map Prod.fst, Fin.ofNat n (hash k) = sec.pos hash := by
    cases sec with
    | push p handler =>
      simp only [AggMap.sec] at hsec
      obtain ⟨⟨ok, l, s1⟩, h1, h2⟩ := bind_inv hsec
      cases h2
      obtain ⟨a, h3, h1⟩ := bind_inv h1
      obtain ⟨⟨ok', out, a'⟩, h4, h1⟩ := bind_inv h1
      simp only at h1
      split at h1
      · cases h1
      cases h1
      intro k hk
      rcases (AggMap.mem_keys_put _ _ _ _).1 hk with rfl | hk
      · rfl
      · exact hh k hk
    | del name =>
      cases hsec
      exact fun k hk => hh k ((AggMap.del_keys _ _).subset hk)
    | pushout i force handler ord =>
      simp only [AggMap.sec] at hsec
      obtain ⟨⟨l, s1⟩, h1, h2⟩ := bind_inv hsec
      cases h2
      have := (AggMap.popAll_spec hn h1).1
      rw [this]
      exact hh
    | size i => cases hsec; exact hh
  have hmin : MInv (oneShard opt s') := (mexecAll_agrees (name := []) sec.op (o := { m := oneShard opt (g (sec.pos hash)) })
    (no := { life := ((g (sec.pos hash)).lookup []).map fun a => { a := a } }) hinv Nat.one_pos (hone [] [])
    ⟨by rw [one_find]; cases (g (sec.pos hash)).lookup [] <;> rfl, rfl, rfl⟩).1
  have hnd : (s'.map Prod.fst).Nodup := hmin.nodup s' (by simp [oneShard])
  have htame : AggMap.FitMap env opt.toAggregatorOpts m M s' := by
    have htot : ∀ (ops : List MOp) (o o' : MObs), o.m.opt.toAggregatorOpts = opt.toAggregatorOpts → 0 < o.m.opt.hashSize → MInv o.m →
        FitM env opt.toAggregatorOpts m M o.m → (∀ op ∈ ops, op.apt m M) → mexecAll env o ops = .ok o' →
        FitM env opt.toAggregatorOpts m M o'.m := by
      intro ops
      induction ops with
      | nil => intro o o' _ _ _ ht _ h; cases h; exact ht
      | cons op ops ih =>
        intro o o' ho hz hi ht hf h
        obtain ⟨o1, e, hi1, ho1, ht1⟩ := mexec_fits (env := env) (by rw [ho]; exact hs) hz B hi (by rw [ho]; exact ht) (hf op (by simp))
        unfold mexecAll at h
        rw [List.foldlM_cons, e] at h
        exact ih o1 o' (by rw [ho1, ho]) (by rw [ho1]; exact hz) hi1 (by rw [ho] at ht1; exact ht1)
          (fun x hx => hf x (by simp [hx])) h
    have := htot sec.op _ _ rfl Nat.one_pos hinv htm hf (hone [] [])
    intro name a ha
    apply this name a
    rw [one_find]
    exact ha
  refine ⟨r, s', hsec, ?_, ?_⟩
  · intro k
    by_cases hk : k = sec.pos hash
    · subst hk
      rw [Function.update_self]
      exact ⟨hnd, hkeys, htame⟩
    · rw [Function.update_of_ne hk]
      exact hi k
  · intro name dl an no ha
    by_cases hk : Fin.ofNat n (hash name) = sec.pos hash
    · rw [hk] at ha ⊢
      rw [Function.update_self]
      obtain ⟨_, _, no', e, a⟩ := mexecAll_agrees (name := name) (no := no) sec.op
        (o := { m := oneShard opt (g (sec.pos hash)), delivered := dl, answers := an }) hinv Nat.one_pos (hone dl an)
        (by simp only [one_find]; exact ha)
      refine ⟨no', ?_, by simp only [one_find] at a; exact a⟩
      have hforName : Multi.forName name sec.op = sec.forName hash name := by
        cases sec with
        | push p handler => simp [Multi.forName, MuSec.op, MOp.forName, MuSec.forName]
        | del k => simp [Multi.forName, MuSec.op, MOp.forName, MuSec.forName]
        | pushout i force handler ord =>
          have hk : Fin.ofNat n (hash name) = i := hk
          simp only [Multi.forName, MuSec.op, MuSec.forName, if_pos hk]
          rfl
        | size i => rfl
      rw [← hforName]
      exact e
    · rw [Function.update_of_ne hk]
      have hnot : name ∉ (g (sec.pos hash)).map Prod.fst := fun h => hk (hh name h)
      have hfn : sec.forName hash name = [] := by
        cases sec with
        | push p handler =>
          simp only [MuSec.forName]
          rw [if_neg]
          rintro rfl
          exact hk rfl
        | del k =>
          simp only [MuSec.forName]
          rw [if_neg]
          rintro rfl
          exact hk rfl
        | pushout i force handler ord =>
          simp only [MuSec.forName]
          exact if_neg hk
        | size i => rfl
      have hout : about name r.out = [] ∧ about name (sec.answer r) = [] := by
        cases sec with
        | push p handler =>
          have hne : p.name ≠ name := by
            rintro rfl
            exact hk rfl
          simp only [AggMap.sec] at hsec
          obtain ⟨⟨ok, l, s1⟩, h1, h2⟩ := bind_inv hsec
          cases h2
          obtain ⟨a, h3, h1⟩ := bind_inv h1
          obtain ⟨⟨ok', out, a'⟩, h4, h1⟩ := bind_inv h1
          simp only at h1
          split at h1
          · cases h1
          cases h1
          exact ⟨by rw [about_map', if_neg hne], by simp [MuSec.answer, about, hne]⟩
        | del k =>
          have hne : k ≠ name := by
            rintro rfl
            exact hk rfl
          cases hsec
          exact ⟨rfl, by simp [MuSec.answer, about, hne]⟩
        | pushout i force handler ord =>
          simp only [AggMap.sec] at hsec
          obtain ⟨⟨l, s1⟩, h1, h2⟩ := bind_inv hsec
          cases h2
          exact ⟨(((AggMap.popAll_spec hn h1).2 name).1 (AggMap.lookup_none.2 hnot)).2, rfl⟩
        | size i => cases hsec; exact ⟨rfl, rfl⟩
      refine ⟨no, by rw [hfn]; rfl, ha.agg, ?_, ?_⟩
      · rw [about_append, hout.1, List.append_nil, ha.delivered]
      · rw [about_append, hout.2, List.append_nil, ha.answers]

end

/-- Values in `[m, M]`, and a handler. -/
def MuCall.apt (m M : Int) : MuCall → Prop
  | .push p h => h = true ∧ ∀ v ∈ p.v.data, m ≤ v ∧ v ≤ M
  | .multiPush ps h => h = true ∧ ∀ p ∈ ps, ∀ v ∈ p.v.data, m ≤ v ∧ v ≤ M
  | .del _ => True
  | .pushout _ h _ => h = true
  | .size => True

theorem MuCall.apt_sec {n : Nat} {m M : Int} {c : MuCall} (h : c.apt m M) {sec : MuSec n} (hs : sec ∈ c.plan n) :
    sec.apt m M := by
  cases c with
  | push p handler =>
    simp only [plan, List.mem_singleton] at hs
    subst hs
    intro op hop
    simp only [MuSec.op, List.mem_singleton] at hop
    subst hop
    exact h
  | multiPush ps handler =>
    simp only [plan, List.mem_map] at hs
    obtain ⟨p, hp, rfl⟩ := hs
    intro op hop
    simp only [MuSec.op, List.mem_singleton] at hop
    subst hop
    exact ⟨h.1, h.2 p hp⟩
  | del name =>
    simp only [plan, List.mem_singleton] at hs
    subst hs
    intro op hop
    simp only [MuSec.op, List.mem_singleton] at hop
    subst hop
    trivial
  | pushout force handler ord =>
    simp only [plan, List.mem_map] at hs
    obtain ⟨i, -, rfl⟩ := hs
    intro op hop
    simp only [MuSec.op, List.mem_singleton] at hop
    subst hop
    exact h
  | size =>
    simp only [plan, List.mem_map] at hs
    obtain ⟨i, -, rfl⟩ := hs
    intro op hop
    simp [MuSec.op] at hop

theorem legal_fits {T : Type} {n : Nat} [NeZero n] {env : Env} {opt : MultiOpts} {hash : Name → Nat} {mi ma : Int} {P : MuCall → Prop}
    (hs : 0 < opt.step) (B : Reducer.Bounds env mi ma) (hP : ∀ c, P c → c.apt mi ma) {g g' : Fin n → AggMap}
    {lin : List (T × (MuCall × MuSec n) × M MuRes)}
    (hl : Legal (SecsSpec env opt hash P) g lin g') (hi : ShFit env opt.toAggregatorOpts hash mi ma g) :
    (∀ e ∈ lin, ∃ r, e.2.2 = .ok r) ∧
    ∀ name dl an no, Agrees name ((g (Fin.ofNat n (hash name))).lookup name) dl an no →
      ∃ no', nexecAll env opt.toAggregatorOpts no (lin.flatMap fun e => e.2.1.2.forName hash name) = .ok no' ∧
        Agrees name ((g' (Fin.ofNat n (hash name))).lookup name) (dl ++ lin.flatMap fun e => (okRes e.2.2).out)
          (an ++ lin.flatMap fun e => e.2.1.2.answer (okRes e.2.2)) no' := by
  induction hl with
  | nil => exact ⟨by simp, fun name dl an no ha => ⟨no, rfl, by simpa using ha⟩⟩
  | cons g g1 g2 t x r l h _ ih =>
    obtain ⟨hPx, hx, s', hsp, rfl⟩ := h
    obtain ⟨r0, s0, e, hi1, ha⟩ := sec_fits hs B hi x.2 (MuCall.apt_sec (hP _ hPx) hx)
    unfold AggMap.SecSpec at hsp
    rw [e] at hsp
    obtain ⟨rfl, rfl⟩ := hsp
    obtain ⟨i1, i2⟩ := ih hi1
    refine ⟨?_, fun name dl an no hag => ?_⟩
    · intro e he
      rcases List.mem_cons.1 he with rfl | he
      · exact ⟨r0, rfl⟩
      · exact i1 e he
    · obtain ⟨no1, k1, k2⟩ := ha name dl an no hag
      obtain ⟨no2, k3, k4⟩ := i2 name _ _ no1 k2
      refine ⟨no2, ?_, ?_⟩
      · unfold nexecAll at *
        rw [List.flatMap_cons, List.foldlM_append, k1]
        exact k3
      · simpa [okRes] using k4


/-! ### Calls without a handler -/

/-- A call without a handler is the call with one if that hands nothing over, and throws otherwise. -/
theorem AggMap.push_silent {env : Env} {opt : MultiOpts} {s s' : AggMap} {name : Name} {v : ReducedData} {clk rand clk1 clk2 : Int} {ok : Bool}
    {l : List PushReq} (h : s.push env opt name v clk rand clk1 clk2 true = .ok (ok, l, s')) :
    s.push env opt name v clk rand clk1 clk2 false = if l = [] then .ok (ok, l, s') else .error .badFunctionCall := by
  unfold AggMap.push at h ⊢
  obtain ⟨a, e, h⟩ := bind_inv h
  obtain ⟨⟨ok', out, a'⟩, e', h⟩ := bind_inv h
  simp only [Bool.true_eq_false, and_false, if_false] at h
  cases h
  rw [e, bind_ok', e', bind_ok']
  by_cases ho : out = [] <;> simp [ho]

theorem AggMap.popLoop_silent {env : Env} {force : Bool} (ns : List Name) : ∀ {s s' : AggMap} {l : List PushReq},
    popLoop env force true ns s = .ok (l, s') →
    popLoop env force false ns s = if l = [] then .ok (l, s') else .error .badFunctionCall := by
  induction ns with
  | nil => intro s s' l h; cases h; rfl
  | cons n ns ih =>
    intro s s' l h
    unfold popLoop at h ⊢
    cases hl : s.lookup n with
    | none => rw [hl] at h; exact ih h
    | some a =>
      rw [hl] at h
      simp only at h ⊢
      obtain ⟨⟨d, a'⟩, e, h⟩ := bind_inv h
      simp only [Bool.true_eq_false, and_false, if_false] at h
      obtain ⟨⟨l', s1⟩, e', h⟩ := bind_inv h
      cases h
      rw [e, bind_ok']
      cases d with
      | some d => simp
      | none =>
        simp only [Option.isSome_none, Bool.false_eq_true, false_and, if_false, ih e', Option.toList_none, List.map_nil, List.nil_append]
        by_cases ho : l' = []
        · simp only [ho, if_true, bind_ok', List.nil_append]
        · simp only [ho, if_false]; rfl

namespace Multi

theorem push_silent {env : Env} {x x' : Multi} {p : PushArg} {ok : Bool} {l : List PushReq}
    (h : x.push env p.name p.v p.clk p.rand p.clk1 p.clk2 true = .ok (ok, l, x')) :
    x.push env p.name p.v p.clk p.rand p.clk1 p.clk2 false = if l = [] then .ok (ok, l, x') else .error .badFunctionCall := by
  unfold Multi.push at h ⊢
  obtain ⟨i, e1, h⟩ := bind_inv h
  obtain ⟨s, e2, h⟩ := bind_inv h
  obtain ⟨⟨ok', l', s'⟩, e3, h⟩ := bind_inv h
  cases h
  rw [e1, bind_ok', e2, bind_ok', AggMap.push_silent e3]
  by_cases ho : l = []
  · simp only [ho, if_true, bind_ok']
  · simp only [ho, if_false]; rfl

theorem multiPush_silent {env : Env} (ps : List PushArg) : ∀ {x x' : Multi} {l : List PushReq}, multiPush env true ps x = .ok (l, x') →
    multiPush env false ps x = if l = [] then .ok (l, x') else .error .badFunctionCall := by
  induction ps with
  | nil => intro x x' l h; cases h; rfl
  | cons p ps ih =>
    intro x x' l h
    unfold multiPush at h ⊢
    obtain ⟨⟨ok, l1, x1⟩, e1, h⟩ := bind_inv h
    obtain ⟨⟨l2, x2⟩, e2, h⟩ := bind_inv h
    cases h
    rw [push_silent e1]
    by_cases ho : l1 = []
    · simp only [ho, if_true, bind_ok', ih e2, List.nil_append]
      by_cases ho2 : l2 = []
      · simp only [ho2, if_true, bind_ok', List.nil_append]
      · simp only [ho2, if_false]; rfl
    · simp only [ho, if_false, List.append_eq_nil_iff, false_and]; rfl

theorem popShards_silent {env : Env} {force : Bool} {ord : IterOrder} (ss : List AggMap) : ∀ {ss' : List AggMap} {l : List PushReq},
    popShards env force true ord ss = .ok (l, ss') →
    popShards env force false ord ss = if l = [] then .ok (l, ss') else .error .badFunctionCall := by
  induction ss with
  | nil => intro ss' l h; cases h; rfl
  | cons s ss ih =>
    intro ss' l h
    unfold popShards at h ⊢
    obtain ⟨⟨l1, s1⟩, e1, h⟩ := bind_inv h
    obtain ⟨⟨l2, ss2⟩, e2, h⟩ := bind_inv h
    cases h
    unfold AggMap.popAll at e1 ⊢
    rw [AggMap.popLoop_silent _ e1]
    by_cases ho : l1 = []
    · simp only [ho, if_true, bind_ok', ih e2, List.nil_append]
      by_cases ho2 : l2 = []
      · simp only [ho2, if_true, bind_ok', List.nil_append]
      · simp only [ho2, if_false]; rfl
    · simp only [ho, if_false, List.append_eq_nil_iff, false_and]; rfl

/-- The call has a handler, or needs none. -/
def MOp.handled : MOp → Bool
  | .push _ h => h
  | .multiPush _ h => h
  | .del _ => true
  | .pushout _ h _ => h

/-- The call, with a handler. -/
def MOp.with_ : MOp → MOp
  | .push p _ => .push p true
  | .multiPush ps _ => .multiPush ps true
  | .del n => .del n
  | .pushout f _ ord => .pushout f true ord

/-- The values of the call are between `m` and `M`. -/
def MOp.within (m M : Int) : MOp → Prop
  | .push p _ => ∀ v ∈ p.v.data, m ≤ v ∧ v ≤ M
  | .multiPush ps _ => ∀ p ∈ ps, ∀ v ∈ p.v.data, m ≤ v ∧ v ≤ M
  | _ => True

theorem MOp.within.apt {m M : Int} {op : MOp} (h : op.within m M) : op.with_.apt m M := by
  cases op with
  | push p _ => exact ⟨rfl, h⟩
  | multiPush ps _ => exact ⟨rfl, h⟩
  | del n => trivial
  | pushout f _ ord => rfl

theorem MOp.enter_with (opt : AggregatorOpts) (name : Name) (A : Account) (op : MOp) : op.with_.enter opt name A = op.enter opt name A := by
  cases op <;> rfl

theorem mexec_silent {env : Env} {o o' : MObs} {op : MOp} (h : mexec env o op.with_ = .ok o') :
    (∃ l, o'.delivered = o.delivered ++ l) ∧
    mexec env o op = if op.handled = true ∨ o'.delivered = o.delivered then .ok o' else .error .badFunctionCall := by
  cases op with
  | push p hd =>
    simp only [MOp.with_, mexec] at h ⊢
    obtain ⟨⟨ok, l, x⟩, e, h⟩ := bind_inv h
    cases h
    refine ⟨⟨l, rfl⟩, ?_⟩
    cases hd with
    | true => simp only [e, bind_ok', MOp.handled, true_or, if_true]
    | false =>
      rw [push_silent e]
      by_cases ho : l = []
      · simp only [ho, if_true, bind_ok', List.append_nil, or_true]
      · simp only [ho, if_false, MOp.handled, Bool.false_eq_true, List.append_right_eq_self, or_self]; rfl
  | multiPush ps hd =>
    simp only [MOp.with_, mexec] at h ⊢
    obtain ⟨⟨l, x⟩, e, h⟩ := bind_inv h
    cases h
    refine ⟨⟨l, rfl⟩, ?_⟩
    cases hd with
    | true => simp only [e, bind_ok', MOp.handled, true_or, if_true]
    | false =>
      rw [multiPush_silent ps e]
      by_cases ho : l = []
      · simp only [ho, if_true, bind_ok', List.append_nil, or_true]
      · simp only [ho, if_false, MOp.handled, Bool.false_eq_true, List.append_right_eq_self, or_self]; rfl
  | del n =>
    simp only [MOp.with_, mexec] at h ⊢
    obtain ⟨⟨b, x⟩, e, h⟩ := bind_inv h
    cases h
    exact ⟨⟨[], by simp⟩, by simp only [e, bind_ok', MOp.handled, true_or, if_true]⟩
  | pushout f hd ord =>
    simp only [MOp.with_, mexec, Multi.popAll] at h ⊢
    obtain ⟨⟨l, x⟩, e1, h⟩ := bind_inv h
    cases h
    obtain ⟨⟨l', ss⟩, e, e2⟩ := bind_inv e1
    clear e1
    cases e2
    refine ⟨⟨l', rfl⟩, ?_⟩
    cases hd with
    | true => simp only [e, bind_ok', MOp.handled, true_or, if_true]
    | false =>
      rw [popShards_silent _ e]
      by_cases ho : l' = []
      · simp only [ho, if_true, bind_ok', List.append_nil, or_true]
      · simp only [ho, if_false, MOp.handled, Bool.false_eq_true, List.append_right_eq_self, or_self]; rfl

/-- A call that runs is the call with a handler. -/
theorem mexec_with {env : Env} {m M : Int} {o o' : MObs} {op : MOp} (hs : 0 < o.m.opt.step) (hz : 0 < o.m.opt.hashSize) (B : Reducer.Bounds env m M)
    (hi : MInv o.m) (ht : FitM env o.m.opt.toAggregatorOpts m M o.m) (hop : op.within m M) (h : mexec env o op = .ok o') :
    mexec env o op.with_ = .ok o' := by
  obtain ⟨o1, e, -⟩ := mexec_fits hs hz B hi ht hop.apt
  rw [(mexec_silent e).2] at h
  split at h
  · cases h; exact e
  · cases h

/-- What holds after a history that ran. -/
theorem mexecAll_ran {env : Env} {m M : Int} (B : Reducer.Bounds env m M) (ops : List MOp) : ∀ {o o' : MObs}, 0 < o.m.opt.step → 0 < o.m.opt.hashSize →
    MInv o.m → FitM env o.m.opt.toAggregatorOpts m M o.m → (∀ op ∈ ops, op.within m M) → mexecAll env o ops = .ok o' →
    o'.m.opt = o.m.opt ∧ MInv o'.m ∧ FitM env o.m.opt.toAggregatorOpts m M o'.m := by
  induction ops with
  | nil => intro o o' _ _ hi ht _ h; cases h; exact ⟨rfl, hi, ht⟩
  | cons op ops ih =>
    intro o o' hs hz hi ht hop h
    unfold mexecAll at h
    rw [List.foldlM_cons] at h
    obtain ⟨o1, e, h⟩ := bind_inv h
    have e2 := mexec_with hs hz B hi ht (hop op (by simp)) e
    obtain ⟨o2, e3, hi1, ho1, ht1⟩ := mexec_fits hs hz B hi ht (hop op (by simp)).apt
    rw [e2] at e3
    cases e3
    obtain ⟨k1, k2, k3⟩ := ih (by rw [ho1]; exact hs) (by rw [ho1]; exact hz) hi1 (by rw [ho1]; exact ht1) (fun x hx => hop x (by simp [hx])) h
    exact ⟨k1.trans ho1, k2, by rw [ho1] at k3; exact k3⟩

end Multi

/-! ### C171 -/

/-- With a handler and values between representable bounds no history of a multi aggregator faults, whatever the clocks show, whatever the times of
the events are, and whatever `rand` gives. -/
theorem C171_total (env : Env) (hash : Name → Nat) (opt : MultiOpts) (ops : List MOp) (m M : Int) (B : Reducer.Bounds env m M) (hs : 0 < opt.step)
    (hz : 0 < opt.hashSize) (hf : ∀ op ∈ ops, op.within m M ∧ op.handled = true) : ∃ o, mexecAll env { m := Multi.new hash opt } ops = .ok o := by
  refine mexecAll_fits B ops hs hz (minv_new hash opt) ?_ ?_
  · intro n a h
    have := (agrees_new hash opt n).agg
    rw [this] at h
    cases h
  · intro op hop
    obtain ⟨h1, h2⟩ := hf op hop
    have := h1.apt
    cases op with
    | push p h => cases h2; exact this
    | multiPush ps h => cases h2; exact this
    | del n => trivial
    | pushout f h ord => cases h2; exact this

/-- Without a handler a call runs exactly if it makes no entry in the books of any name; otherwise it throws `std::bad_function_call`. -/
theorem C171_exact (env : Env) (hash : Name → Nat) (opt : MultiOpts) (ops : List MOp) (o : MObs) (m M : Int) (B : Reducer.Bounds env m M)
    (hs : 0 < opt.step) (hz : 0 < opt.hashSize) (hf : ∀ op ∈ ops, op.within m M) (h : mexecAll env { m := Multi.new hash opt } ops = .ok o)
    (op : MOp) (hop : op.within m M) :
    let silent := ∀ name, (account opt.toAggregatorOpts name (ops ++ [op])).made = (account opt.toAggregatorOpts name ops).made
    (op.handled = true ∨ silent → ∃ o', mexec env o op = .ok o') ∧
    (¬ (op.handled = true ∨ silent) → mexec env o op = .error .badFunctionCall) := by
  intro silent
  obtain ⟨ho, hi, ht⟩ := mexecAll_ran B ops (o := { m := Multi.new hash opt }) hs hz (minv_new hash opt) (by
    intro n a h
    have := (agrees_new hash opt n).agg
    rw [this] at h
    cases h) hf h
  have ho' : o.m.opt = opt := ho
  obtain ⟨o1, e, -⟩ := mexec_fits (o := o) (op := op.with_) (by rw [ho']; exact hs) (by rw [ho']; exact hz) B hi (by rw [ho]; exact ht) hop.apt
  obtain ⟨⟨l, hl⟩, hx⟩ := mexec_silent e
  have hrun : mexecAll env { m := Multi.new hash opt } (ops ++ [op.with_]) = .ok o1 := by
    unfold mexecAll at h ⊢
    rw [List.foldlM_append, h, bind_ok', List.foldlM_cons, e]
    rfl
  have hacc : ∀ name, account opt.toAggregatorOpts name (ops ++ [op.with_]) = account opt.toAggregatorOpts name (ops ++ [op]) := by
    intro name
    simp only [account, List.foldl_append, List.foldl_cons, List.foldl_nil, MOp.enter_with]
  have hlen : ∀ name, (account opt.toAggregatorOpts name (ops ++ [op])).made.length =
      (account opt.toAggregatorOpts name ops).made.length + (about name l).length := by
    intro name
    have k1 := (C162_account env hash opt ops o hs hz h name).1.length_eq
    have k2 := (C162_account env hash opt _ o1 hs hz hrun name).1.length_eq
    rw [hacc] at k2
    rw [k1, k2, hl, about_append, List.length_append]
  have hiff : (∀ name, (account opt.toAggregatorOpts name (ops ++ [op])).made = (account opt.toAggregatorOpts name ops).made) ↔
      o1.delivered = o.delivered := by
    rw [hl, List.append_right_eq_self]
    constructor
    · intro hm
      cases l with
      | nil => rfl
      | cons q l =>
        have := hlen q.1
        rw [hm] at this
        simp [about] at this
    · rintro rfl name
      have hl' := hlen name
      have h0 : (about name ([] : List PushReq)).length = 0 := rfl
      rw [h0, Nat.add_zero] at hl'
      have hpre : ∀ (A : Account), A.made <+: (op.enter opt.toAggregatorOpts name A).made := by
        have hp : ∀ (A : Account) (p : PushArg) (seen : Bool), A.made <+: (A.push opt.toAggregatorOpts p seen).made :=
          fun A p seen => ⟨_, rfl⟩
        intro A
        cases op with
        | push p _ =>
          simp only [MOp.enter]
          split
          · exact hp _ _ _
          · exact List.prefix_rfl
        | multiPush ps _ =>
          simp only [MOp.enter]
          generalize ps.filter (fun p => p.name = name) = qs
          induction qs generalizing A with
          | nil => exact List.prefix_rfl
          | cons q qs ih => exact (hp A q false).trans (ih _)
        | del n =>
          simp only [MOp.enter]
          split <;> exact List.prefix_rfl
        | pushout f _ _ =>
          simp only [MOp.enter]
          split
          · split
            · exact ⟨_, rfl⟩
            · exact List.prefix_rfl
          · exact List.prefix_rfl
      have hp := hpre (account opt.toAggregatorOpts name ops)
      have he : account opt.toAggregatorOpts name (ops ++ [op]) = op.enter opt.toAggregatorOpts name (account opt.toAggregatorOpts name ops) := by
        simp only [account, List.foldl_append, List.foldl_cons, List.foldl_nil]
      rw [← he] at hp
      exact (hp.eq_of_length hl'.symm).symm
  rw [hx]
  refine ⟨fun hc => ?_, fun hc => ?_⟩
  · rw [if_pos (hc.imp id hiff.1)]
    exact ⟨_, rfl⟩
  · rw [if_neg (fun h => hc (h.imp id hiff.2))]

/-- Threads that share a multi aggregator keep the accounts of C162, whatever their clocks show: nothing faults, and there is one order of all sections,
respecting the order in each thread and in real time, such that for every name the requests handed over about it and the answers given about it are
those of its account. -/
theorem C171_accounts {T L : Type} [DecidableEq T] {n : Nat} [NeZero n] (env : Env) (opt : MultiOpts) (hash : Name → Nat)
    (b : Body AggMap (MuSec n) (M MuRes) L) (hb : ∀ sec s r s', b.Runs (b.start sec) s r s' → s.SecSpec env opt sec r s')
    (mi ma : Int) (B : Reducer.Bounds env mi ma) (hs : 0 < opt.step)
    (m : Sharded T (Fin n) AggMap (MuSec n) (M MuRes) MuCall (M MuRes) L) (h : MuReach n hash b (MuCall.apt mi ma) m) :
    ∃ lin : List (T × (MuCall × MuSec n) × M MuRes),
      (∀ h1 h2, m.shist = h1 ++ h2 → ∃ l1 l2, lin = l1 ++ l2 ∧
        ∀ t, resOf t h1 <+: opsOf t l1 ∧ (opsOf t l1).map Prod.fst <+: invOf t h1) ∧
      (∀ e ∈ lin, ∃ r, e.2.2 = .ok r) ∧
      ∀ name, let A := (lin.flatMap fun e => e.2.1.2.forName hash name).foldl (NOp.enter opt.toAggregatorOpts) {}
        List.Forall₂ (Entry.Says env opt.toAggregatorOpts) A.made (about name (lin.flatMap fun e => (okRes e.2.2).out)) ∧
        about name (lin.flatMap fun e => e.2.1.2.answer (okRes e.2.2)) = A.said := by
  obtain ⟨lin, ⟨g', hl⟩, hsp⟩ := C87_sections env opt hash b hb _ m h
  have hi : ShFit (n := n) env opt.toAggregatorOpts hash mi ma (fun _ => []) := by
    intro k
    refine ⟨by simp, by simp, ?_⟩
    intro name a ha
    cases ha
  obtain ⟨k1, k2⟩ := legal_fits hs B (fun c hc => hc) hl hi
  refine ⟨lin, hsp, k1, fun name => ?_⟩
  obtain ⟨no, e, a⟩ := k2 name [] [] {} ⟨rfl, rfl, rfl⟩
  have K : Agreed env opt.toAggregatorOpts _ no := Single.nexecAll_agreed (A := {}) (no := {}) hs _ ⟨.nil, rfl, rfl, rfl⟩ e
  have h1 := a.delivered
  have h2 := a.answers
  simp only [List.nil_append] at h1 h2
  exact ⟨h1 ▸ K.made, h2.trans K.said.symm⟩

/-- No call of a thread faults, whatever the clocks show. -/
theorem C171_no_fault {T L : Type} [DecidableEq T] {n : Nat} [NeZero n] (env : Env) (opt : MultiOpts) (hash : Name → Nat)
    (b : Body AggMap (MuSec n) (M MuRes) L) (hb : ∀ sec s r s', b.Runs (b.start sec) s r s' → s.SecSpec env opt sec r s')
    (mi ma : Int) (B : Reducer.Bounds env mi ma) (hs : 0 < opt.step)
    (m : Sharded T (Fin n) AggMap (MuSec n) (M MuRes) MuCall (M MuRes) L) (h : MuReach n hash b (MuCall.apt mi ma) m) (t : T)
    (c : MuCall) (r : M MuRes) (hr : (c, r) ∈ resOf t m.hist) : ∃ x, r = .ok x := by
  obtain ⟨lin, hsp, hok, -⟩ := C171_accounts env opt hash b hb mi ma B hs m h
  obtain ⟨G, now, k1, k2, k3⟩ := C87_made_of_sections hash b _ m h t
  rw [k2, List.mem_map] at hr
  obtain ⟨x, hx, e⟩ := hr
  cases e
  have hall : ∀ y ∈ x.2.map Prod.snd, ∃ z, y = .ok z := by
    intro y hy
    obtain ⟨⟨sec, y'⟩, hy2, rfl⟩ := List.mem_map.1 hy
    have hmem : ((x.1, sec), y') ∈ resOf t m.shist := by
      rw [k1]
      exact List.mem_append_left _ (List.mem_flatMap.2 ⟨x, hx, List.mem_map.2 ⟨(sec, y'), hy2, rfl⟩⟩)
    obtain ⟨l1, l2, rfl, hb⟩ := hsp m.shist [] (by simp)
    have hmem : ((x.1, sec), y') ∈ opsOf t l1 := (hb t).1.subset hmem
    unfold opsOf at hmem
    rw [List.mem_filterMap] at hmem
    obtain ⟨e, he, h2⟩ := hmem
    split at h2
    · obtain ⟨z, hz⟩ := hok e (List.mem_append_left _ he)
      rw [Option.some.inj h2] at hz
      exact ⟨z, hz⟩
    · cases h2
  have hff : ∀ l : List (M MuRes), (∀ y ∈ l, ∃ z, y = .ok z) → ∃ zs, firstFault l = .ok zs := by
    intro l
    induction l with
    | nil => exact fun _ => ⟨[], rfl⟩
    | cons y l ih =>
      intro hl
      obtain ⟨z, rfl⟩ := hl y (by simp)
      obtain ⟨zs, hz⟩ := ih fun y hy => hl y (by simp [hy])
      refine ⟨z :: zs, ?_⟩
      unfold firstFault at hz ⊢
      rw [List.mapM_cons, hz]
      rfl
  obtain ⟨zs, hz⟩ := hff _ hall
  rw [hz]
  exact ⟨_, rfl⟩

open ExMulti in
/-- Clocks before 1970 and running back: the history runs. Then a push without a handler turns no page and runs; one that turns the page of `na`, and
a `force_pushout`, throw; a `multi_push` throws, too, though only its second request turns a page. -/
example : let opt : MultiOpts := ExMulti.opt
    let ops : List MOp := [.push { arg na 1003 [5] with clk := -7, clk1 := -5, clk2 := -900 } true, .push { arg nb 0 [3] with clk := -20, clk1 := -45, clk2 := -60 } true,
      .push { arg nb 0 [4] with clk1 := -2, clk2 := -3 } true]
    let next (op : MOp) : Option Fault := match mexecAll exactEnv { m := Multi.new (fun n => n.length) opt } ops with
      | .ok o => match mexec exactEnv o op with
        | .ok _ => none
        | .error e => some e
      | .error e => some e
    Passes (mexecAll exactEnv { m := Multi.new (fun n => n.length) opt } ops) (fun _ => true) = true ∧
    (∀ op ∈ ops, op.within 1 9 ∧ op.handled = true) ∧
    (account opt.toAggregatorOpts na (ops ++ [.push (arg na 1004 [6]) false])).made = [] ∧
    ((account opt.toAggregatorOpts na (ops ++ [.push (arg na 1021 [6]) false])).made).length = 1 ∧
    next (.push (arg na 1004 [6]) false) = none ∧ next (.push (arg na 1021 [6]) false) = some .badFunctionCall ∧
    next (.multiPush [arg na 1005 [2], arg na 1033 [1]] false) = some .badFunctionCall ∧
    next (.pushout true false ord) = some .badFunctionCall ∧ next (.pushout false false ord) = none := by
  refine ⟨by decide +kernel, ?_, by decide +kernel⟩
  simp [MOp.within, MOp.handled, arg, red]

end Wrtstat
