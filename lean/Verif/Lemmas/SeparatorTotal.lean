import Verif.Lemmas.SeparatorInv

namespace Wrtstat
namespace Separator
open Reducer

/-- `separate` returns, or the average of the pending values does not fit the result type. -/
theorem separate_result {env : Env} {opt : ReducerOpts} {s : Separator} {as : List AddArg}
    (clk ts : Int) (handler force : Bool) (hs : 0 < s.step) (g : GoodA env opt s.reducer as) :
    (∃ x, s.separate env clk ts handler force = .ok x) ∨
    (s.separate env clk ts handler force = .error .ub ∧ detach env s.reducer = .error .ub) := by
  unfold separate getTs
  rw [getTs_eq (by omega)]
  simp only [bind_ok]
  set T := align s.step (meant s.resolution clk ts)
  by_cases hf : force = false ∧ T < s.next
  · rw [if_pos hf]; exact .inl ⟨_, rfl⟩
  · rw [if_neg hf]
    rcases sepLoop_spec (ts := T) (next := s.next) hs g with ⟨_, e⟩ | ⟨_, next', _, _, _, ⟨x, hx, e⟩ | ⟨_, e⟩ |
        ⟨_, d, r', _, _, e⟩⟩
    · rw [e]; left; cases handler <;> exact ⟨_, rfl⟩
    · right
      have : x = .ub := by
        rcases detach_spec g with ⟨_, e, _⟩ | ⟨_, r1, _, _, _, _, _, _, ⟨a, _, e⟩ | ⟨_, e⟩⟩
        · rw [e] at hx; cases hx
        · rw [e] at hx; cases hx
        · rw [e] at hx; cases hx; rfl
      subst this
      rw [e]; exact ⟨rfl, hx⟩
    · rw [e]; left; cases handler <;> exact ⟨_, rfl⟩
    · rw [e]; left; cases handler <;> exact ⟨_, rfl⟩

theorem push_result {env : Env} {opt : ReducerOpts} {s : Separator} {as : List AddArg}
    (clk1 clk2 ts : Int) (a : AddArg) (handler : Bool) (hs : 0 < s.step) (g : GoodA env opt s.reducer as) :
    (∃ x, s.push env clk1 clk2 ts a handler = .ok x) ∨
    (s.push env clk1 clk2 ts a handler = .error .ub ∧ detach env s.reducer = .error .ub) := by
  unfold push getTs
  rw [getTs_eq (by omega)]
  simp only [bind_ok]
  rcases separate_result clk2 (align s.step (meant s.resolution clk1 ts)) handler false hs g with ⟨x, e⟩ | ⟨e, e'⟩
  · rw [e]
    left
    obtain ⟨b, out, s1⟩ := x
    simp only [bind_ok]
    split_ifs <;> exact ⟨_, rfl⟩
  · rw [e]
    exact .inr ⟨rfl, e'⟩

theorem mem_allValues_eventsIn {acc : List (Int × AddArg)} {lo hi v : Int}
    (h : v ∈ allValues (eventsIn acc lo hi)) : ∃ e ∈ acc, v ∈ e.2.values := by
  unfold allValues eventsIn at h
  rw [List.mem_flatMap] at h
  obtain ⟨a, ha, hv⟩ := h
  rw [List.mem_map] at ha
  obtain ⟨e, he, rfl⟩ := ha
  exact ⟨e, (List.mem_filter.1 he).1, hv⟩

/-- The values handed over by an operation. -/
def SOp.vals : SOp → List Int
  | .push _ _ _ a _ => a.values
  | _ => []

theorem getReduced_ok {env : Env} {opt : ReducerOpts} {r : Reducer} {as : List AddArg} {m M : Int}
    (B : Bounds env m M) (g : GoodA env opt r as) (hv : ∀ v ∈ allValues as, m ≤ v ∧ v ≤ M) :
    ∃ x, getReduced env r = .ok x := by
  obtain ⟨x, r', e⟩ := detach_total B (goodA_clone g) hv
  unfold getReduced
  rw [e]
  exact ⟨x, rfl⟩

theorem exec_total {env : Env} {opt : SeparatorOpts} {org : Int} {o : Obs} {log : List AggData} {m M : Int}
    (hs : 0 < opt.step) (B : Bounds env m M) (g : SGood env opt org o log) (op : SOp)
    (ha : ∀ e ∈ o.accepted, ∀ v ∈ e.2.values, m ≤ v ∧ v ≤ M) (hop : ∀ v ∈ op.vals, m ≤ v ∧ v ≤ M) :
    ∃ o', exec env o op = .ok o' ∧ ∀ e ∈ o'.accepted, ∀ v ∈ e.2.values, m ≤ v ∧ v ≤ M := by
  have hst := g.step.1
  have hv : ∀ v ∈ allValues (eventsIn o.accepted (o.s.next - opt.step) o.s.next), m ≤ v ∧ v ≤ M := by
    intro v hv
    obtain ⟨e, he, hv⟩ := mem_allValues_eventsIn hv
    exact ha e he v hv
  obtain ⟨x, r', hd⟩ := detach_total B g.red hv
  cases op with
  | push clk1 clk2 ts a handler =>
    rcases push_result clk1 clk2 ts a handler (hst ▸ hs) g.red with ⟨⟨b, out, s'⟩, e⟩ | ⟨_, e⟩
    · simp only [exec, e, bind_ok]
      refine ⟨_, rfl, ?_⟩
      intro ev he v hv
      cases b with
      | false => exact ha ev he v hv
      | true =>
        simp only [if_true, List.mem_append, List.mem_singleton] at he
        rcases he with he | he
        · exact ha ev he v hv
        · subst he; exact hop v hv
    · rw [hd] at e; cases e
  | separate clk ts handler force =>
    rcases separate_result clk ts handler force (hst ▸ hs) g.red with ⟨⟨b, out, s'⟩, e⟩ | ⟨_, e⟩
    · simp only [exec, e, bind_ok]
      exact ⟨_, rfl, ha⟩
    · rw [hd] at e; cases e
  | pop => exact ⟨_, rfl, ha⟩
  | look =>
    obtain ⟨y, e⟩ := getReduced_ok B g.red hv
    simp only [exec, getCurrent, e, bind_ok]
    exact ⟨_, rfl, ha⟩

theorem execAll_total {env : Env} {opt : SeparatorOpts} {org : Int} {m M : Int} (hs : 0 < opt.step)
    (B : Bounds env m M) (ops : List SOp) : ∀ {o : Obs} {log : List AggData}, SGood env opt org o log →
    (∀ op ∈ ops, op.clockOk) → (∀ e ∈ o.accepted, ∀ v ∈ e.2.values, m ≤ v ∧ v ≤ M) →
    (∀ op ∈ ops, ∀ v ∈ op.vals, m ≤ v ∧ v ≤ M) → ∃ o', execAll env o ops = .ok o' := by
  induction ops with
  | nil => intro o log _ _ _ _; exact ⟨o, rfl⟩
  | cons op ops ih =>
    intro o log g hc ha hv
    obtain ⟨o1, e, ha1⟩ := exec_total hs B g op ha (hv op (by simp))
    obtain ⟨pub, g1, _⟩ := sgood_exec hs g op (hc op (by simp)) e
    obtain ⟨o', e'⟩ := ih g1 (fun op' h' => hc op' (by simp [h'])) ha1 (fun op' h' => hv op' (by simp [h']))
    refine ⟨o', ?_⟩
    unfold execAll
    rw [List.foldlM_cons, e]
    exact e'

end Separator
end Wrtstat
