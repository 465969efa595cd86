/-
C79 and C80: from the packer through the JSON text to the receiver.
-/
import Verif.Props.Json
import Verif.Props.Packer

namespace Wrtstat

open Packer

set_option autoImplicit false

/-- What the other side does with a text: parse it, read the request into a new object, `recompact`. It is
`none` when any of these reports an error. -/
def receive (T : JsonText) (W : Wjson) (compact : Bool) (t : PName) : Option (List PushRequest) :=
  match T.parse t with
  | none => none
  | some j =>
    match readJson compact (multiCodec compact) j {} with
    | (_, false) => none
    | (m, true) =>
      match recompact W m with
      | .ok (true, m) => some m.data
      | _ => none

/-- The text of a batch. -/
def sendText (T : JsonText) (compact : Bool) (b : MultiPush) : PName := (write compact (multiCodec compact) b).text T.q

theorem Restores.ags {W : Wjson} {b : MultiPush} {l : List PushRequest} (h : Restores W b l) :
    b.data.map PushRequest.ag = l.map PushRequest.ag := by
  unfold Restores recompact at h
  by_cases h1 : b.legend = []
  · rw [if_pos h1] at h
    have e := congrArg MultiPush.data (Prod.mk.inj (Except.ok.inj h)).2
    rw [e]
  · rw [if_neg h1] at h
    by_cases h2 : b.sep = []
    · rw [if_pos h2] at h
      simp at h
    · rw [if_neg h2] at h
      obtain ⟨ok, qs, h3, h4⟩ := recompactAll_total W b.sep b.legend b.data
      rw [h3, bind_ok'] at h
      have e := congrArg MultiPush.data (Prod.mk.inj (Except.ok.inj h)).2
      simp only at e
      rw [← h4, e]

theorem InRange.of_ag {p p' : PushRequest} (h : p.InRange) (e : p.ag = p'.ag) : p'.InRange := by
  obtain ⟨h1, h2, h3, h4, h5, h6, h7, h8, h9, h10, h11, h12⟩ := h
  rw [e] at h1 h2 h3 h4 h5 h6 h7 h8 h9 h10 h11 h12
  exact ⟨h1, h2, h3, h4, h5, h6, h7, h8, h9, h10, h11, h12⟩

theorem receive_sent (T : JsonText) (W : Wjson) (compact : Bool) {b : MultiPush} {l : List PushRequest} (h : Restores W b l)
    (hl : ∀ p ∈ l, p.InRange) : receive T W compact (sendText T compact b) = some l := by
  have hr : ∀ p ∈ b.data, p.InRange := by
    intro p hp
    have : p.ag ∈ l.map PushRequest.ag := h.ags ▸ List.mem_map_of_mem hp
    obtain ⟨p', h1, h2⟩ := List.mem_map.1 this
    exact InRange.of_ag (hl p' h1) h2
  unfold receive sendText
  rw [T.parse_text]
  simp only [C75_multi compact b hr, show recompact W b = _ from h]

/-- Whatever is called on the packer: if every batch is sent as JSON, plain or compact, then the receivers
get, each from its text, requests that together with those popped one by one and those still in the packer
are exactly the requests pushed. -/
theorem C80_delivered (T : JsonText) (J : Json) (W : Wjson) (opt : PackerOpts) (hd : Bool) (ops : List PackOp) (o : PObs)
    (compact : Bool) (h : pexecAll J { pk := Packer.new opt hd } ops = .ok o) (hb : ∀ b ∈ o.batches, b.legend.length ≤ 2 ^ 64)
    (hr : ∀ p ∈ o.pushed, p.InRange) :
    ∃ datas : List (List PushRequest),
      o.batches.map (fun b => receive T W compact (sendText T compact b)) = datas.map some ∧
      (datas.flatten ++ o.popped ++ o.pk.contents).Perm o.pushed := by
  obtain ⟨datas, h1, h2⟩ := C43_conserved J W opt hd ops o h hb
  refine ⟨datas, ?_, h2⟩
  have hm : ∀ l ∈ datas, ∀ p ∈ l, p.InRange := fun l hl p hp =>
    hr p (h2.subset (by simp only [List.mem_append, List.mem_flatten]; exact .inl (.inl ⟨l, hl, hp⟩)))
  clear h2
  revert hm
  generalize o.batches = bs at h1 ⊢
  induction h1 with
  | nil => exact fun _ => rfl
  | cons h1 _ ih =>
    intro hm
    rw [List.map_cons, List.map_cons, receive_sent T W compact h1 (hm _ (by simp)), ih fun l hl => hm l (by simp [hl])]

/-- Without compaction of names the text of a batch is no longer than `json_limit` and what the separator is
longer than `~~`. -/
theorem C79_limit (q : PName → PName) (J : Json) (hq : WritesAs q J) (opt : PackerOpts) (hd : Bool) (ops : List PackOp) (o : PObs)
    (b : MultiPush) (pk : Packer) (h : pexecAll J { pk := Packer.new opt hd } ops = .ok o)
    (hp : multiPop J o.pk = .ok (some b, pk)) (hc : opt.nameCompact = false) :
    ((write opt.jsonCompact (multiCodec opt.jsonCompact) b).text q).length ≤ opt.jsonLimit + ((q opt.nameSep).length - 4) := by
  rw [← C79_multi q J hq, hq.str]
  exact C44_plain_partial J opt hd ops o b pk h hp hc

section
open ExPacker

/-- Two names with common words, packed, sent and received. -/
example : Passes (pexecAll exJson { pk := Packer.new { nameCompact := true, jsonCompact := true } true }
      [.push (rq "x~~y" [1, 2]), .push (rq "y~~x~~\"" []), .multiPop])
    (fun o => o.batches.map (sendText exText true) =
        ["[\"~~\",[\"x\",\"y\",\"\\\"\"],[[\"0~1\",0,0,0,0,0,0,0,0,0,0,0,[1,2]],[\"1~0~2\",0,0,0,0,0,0,0,0,0,0,0,[]]]]".toList] ∧
      o.batches.map (fun b => receive exText exWjson true (sendText exText true b)) =
        [some [rq "x~~y" [1, 2], rq "y~~x~~\"" []]]) := by
  decide +kernel
end

end Wrtstat
