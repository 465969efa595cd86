import Verif.Lemmas.AggregatorTotal

namespace Wrtstat

/-- Moving the output of a separation to the internal list. -/
def toList (l : List AggData) (x : M (Bool × List AggData × Separator)) : M (Bool × List AggData × Separator) :=
  match x with
  | .ok (b, out, s) => .ok (b, [], { s with sepList := l ++ out })
  | .error e => .error e

theorem separate_handler (env : Env) (s : Separator) (l : List AggData) (clk ts : Int) (force : Bool) :
    ({ s with sepList := l } : Separator).separate env clk ts false force =
      toList l (s.separate env clk ts true force) := by
  unfold Separator.separate Separator.getTs
  simp only
  cases Separator.getTsWith s.step s.resolution clk ts with
  | error e => rfl
  | ok T =>
    simp only [bind_ok']
    by_cases hc : force = false ∧ T < s.next
    · rw [if_pos hc, if_pos hc]; simp [toList]
    · rw [if_neg hc, if_neg hc]
      cases Separator.sepLoop env s.step T s.next s.reducer with
      | error e => rfl
      | ok p => rfl

theorem push_handler (env : Env) (s : Separator) (l : List AggData) (clk1 clk2 ts : Int) (x : AddArg) :
    ({ s with sepList := l } : Separator).push env clk1 clk2 ts x false =
      toList l (s.push env clk1 clk2 ts x true) := by
  unfold Separator.push Separator.getTs
  simp only
  cases Separator.getTsWith s.step s.resolution clk1 ts with
  | error e => rfl
  | ok T =>
    simp only [bind_ok', separate_handler]
    cases s.separate env clk2 T true false with
    | error e => rfl
    | ok p =>
      obtain ⟨b, out, s1⟩ := p
      simp only [bind_ok', toList]
      by_cases hc : T < s1.next - s1.step
      · rw [if_pos hc, if_pos hc]
      · rw [if_neg hc, if_neg hc]

namespace Aggregator

/-- A handler-fed and a polled aggregator in corresponding states. -/
structure Same (env : Env) (h p : AObs) : Prop where
  sep : p.a.sep = { h.a.sep with sepList := p.a.sep.sepList }
  out : p.a.outSize = h.a.outSize
  enabled : p.a.enabled = h.a.enabled
  acc : p.accepted = h.accepted
  recv : ∃ l, p.a.sep.sepList.mapM (finish env.nth p.a.outSize) = .ok l ∧ h.received = p.a.agList ++ l

theorem mapM_append_ok {α β : Type} {f : α → M β} {l1 l2 : List α} {r1 r2 : List β}
    (h1 : l1.mapM f = .ok r1) (h2 : l2.mapM f = .ok r2) : (l1 ++ l2).mapM f = .ok (r1 ++ r2) := by
  rw [List.mapM_append, h1, bind_ok', h2]; rfl

theorem same_exec {env : Env} {h p : AObs} (S : Same env h p) (clk1 clk2 ts : Int) (x : AddArg) :
    (∃ h' p', exec env h (.push clk1 clk2 ts x true) = .ok h' ∧ exec env p (.add clk1 clk2 ts x) = .ok p' ∧
      Same env h' p') ∨
    (∃ e, exec env h (.push clk1 clk2 ts x true) = .error e ∧ exec env p (.add clk1 clk2 ts x) = .error e) := by
  obtain ⟨hsep, hout, hen, hacc, l, hl, hrec⟩ := S
  simp only [exec]
  by_cases he : h.a.enabled = true
  · rw [add_unfold _ _ _ _ _ _ (hen.trans he), hsep, push_handler]
    unfold push
    rw [if_neg (by simp [he])]
    simp only [Bool.true_eq_false, if_false]
    cases hp : h.a.sep.push env clk1 clk2 ts x true with
    | error e => right; exact ⟨e, rfl, rfl⟩
    | ok q =>
      obtain ⟨ok, out, s'⟩ := q
      left
      obtain ⟨lo, elo, _⟩ := mapM_finish env.nth h.a.outSize out
      simp only [bind_ok', elo, toList]
      have happ := mapM_append_ok hl (hout ▸ elo)
      have hr : p.record ok clk1 ts x = h.record ok clk1 ts x := by
        unfold AObs.record
        rw [hen, hacc, hsep]
      cases ok with
      | false =>
        refine ⟨_, _, rfl, rfl, ⟨rfl, hout, hen, hr, l ++ lo, happ, ?_⟩⟩
        show h.received ++ lo = p.a.agList ++ (l ++ lo)
        rw [hrec]; simp
      | true =>
        simp only [Bool.true_eq_false, if_false]
        have e0 : aggregate0_ env.nth { p.a with sep := { s' with sepList := p.a.sep.sepList ++ out } } =
            .ok { p.a with sep := { s' with sepList := [] }, agList := p.a.agList ++ (l ++ lo) } := by
          unfold aggregate0_
          simp only [happ, bind_ok']
        rw [e0]
        refine ⟨_, _, rfl, rfl, ⟨rfl, hout, hen, hr, [], rfl, ?_⟩⟩
        show h.received ++ lo = p.a.agList ++ (l ++ lo) ++ []
        rw [hrec]; simp
  · left
    unfold push add
    rw [if_pos (by simpa using he), if_pos (by rw [hen]; simpa using he)]
    refine ⟨_, _, rfl, rfl, ⟨hsep, hout, hen, ?_, l, hl, ?_⟩⟩
    · show p.record true clk1 ts x = h.record true clk1 ts x
      unfold AObs.record
      rw [hen, hacc, hsep]
    · simpa using hrec

theorem same_execAll {env : Env} (evs : List Event) : ∀ {h p : AObs}, Same env h p →
    (∃ h' p', execAll env h (evs.map Event.push) = .ok h' ∧ execAll env p (evs.map Event.add) = .ok p' ∧
      Same env h' p') ∨
    (∃ e, execAll env h (evs.map Event.push) = .error e ∧ execAll env p (evs.map Event.add) = .error e) := by
  induction evs with
  | nil => intro h p S; left; exact ⟨h, p, rfl, rfl, S⟩
  | cons ev evs ih =>
    intro h p S
    unfold execAll
    simp only [List.map_cons, List.foldlM_cons]
    rcases same_exec S ev.clk1 ev.clk2 ev.ts ev.x with ⟨h', p', e1, e2, S'⟩ | ⟨e, e1, e2⟩
    · have e1 : exec env h ev.push = .ok h' := e1
      have e2 : exec env p ev.add = .ok p' := e2
      rw [e1, e2]
      exact ih S'
    · have e1 : exec env h ev.push = .error e := e1
      have e2 : exec env p ev.add = .error e := e2
      rw [e1, e2]
      right
      exact ⟨e, rfl, rfl⟩

end Aggregator
end Wrtstat
