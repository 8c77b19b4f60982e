import Verif.Model.HeadRace
import Verif.Props.P2P
import Verif.Lemmas.Lts
/-
C89: what the data race about the head of the bitfield message leads to.
-/
set_option autoImplicit false

namespace Verif.HeadRace
open Verif.P2P Verif.Bf Verif.Lts Verif.Wire

/-- what a goroutine has written is there, and what it has read is the beginning of the message -/
structure Good (m : Bytes) (mem : Bytes) (s : Sender) : Prop where
  wrote : ∀ q, q < s.pos → q < 5 → mem[q]? = m[q]?
  out : s.out = m.take (s.pos - 5)
  le : s.pos ≤ 5 + m.length

structure Inv (m : Bytes) (σ : State) : Prop where
  len : σ.mem.length = m.length
  data : σ.mem.drop 5 = m.drop 5
  good : ∀ (i : Nat) s, σ.senders[i]? = some s → Good m σ.mem s

theorem inv_step {b : Bitfield} {m : Bytes} (hm : m.take 5 = head b) (h5 : 5 ≤ m.length) {σ σ' : State} (hi : Inv m σ) (hs : Step b σ σ') : Inv m σ' := by
  have hh : ∀ p, p < 5 → (head b)[p]? = m[p]? := by
    intro p hp
    rw [← hm, List.getElem?_take, if_pos hp]
  cases hs with
  | enter =>
    refine ⟨hi.len, hi.data, ?_⟩
    intro i s h
    rw [List.getElem?_append] at h
    split at h
    · exact hi.good i s h
    · rw [List.getElem?_singleton] at h
      split at h
      · cases h
        exact ⟨fun q hq => by simp at hq, by simp, by simp⟩
      · cases h
  | write i p out c h hp hc =>
    obtain ⟨hlt, _⟩ := List.getElem?_eq_some_iff.1 h
    rw [hh p hp] at hc
    have g := hi.good i _ h
    have hset : ∀ q, (σ.mem[q]? = m[q]? ∨ q = p) → (σ.mem.set p c)[q]? = m[q]? := by
      intro q hq
      by_cases hpq : p = q
      · subst hpq
        rw [List.getElem?_set_self (by rw [hi.len]; omega), hc]
      · rw [List.getElem?_set_ne hpq]
        rcases hq with hq | hq
        · exact hq
        · exact absurd hq.symm hpq
    refine ⟨by simpa using hi.len, ?_, ?_⟩
    · simp only
      rw [List.drop_set_of_lt hp]
      exact hi.data
    · intro j s hs
      by_cases hij : i = j
      · subst hij
        rw [List.getElem?_set_self hlt] at hs
        cases hs
        refine ⟨?_, ?_, ?_⟩
        · intro q hq h5q
          by_cases hqp : q = p
          · exact hset q (.inr hqp)
          · exact hset q (.inl (g.wrote q (by simp only at hq ⊢; omega) h5q))
        · have := g.out
          simp only at this ⊢
          rw [this, show p - 5 = 0 by omega, show p + 1 - 5 = 0 by omega]
        · simp only; omega
      · rw [List.getElem?_set_ne hij] at hs
        have g' := hi.good j s hs
        exact ⟨fun q hq h5q => hset q (.inl (g'.wrote q hq h5q)), g'.out, g'.le⟩
  | read i q out c h hc =>
    obtain ⟨hlt, _⟩ := List.getElem?_eq_some_iff.1 h
    have g := hi.good i _ h
    refine ⟨hi.len, hi.data, ?_⟩
    intro j s hs
    by_cases hij : i = j
    · subst hij
      rw [List.getElem?_set_self hlt] at hs
      cases hs
      have hc' : m[q]? = some c := by
        by_cases h5q : q < 5
        · rw [← g.wrote q (by simp only; omega) h5q]; exact hc
        · have h1 : (σ.mem.drop 5)[q - 5]? = (m.drop 5)[q - 5]? := by rw [hi.data]
          rw [List.getElem?_drop, List.getElem?_drop, show 5 + (q - 5) = q by omega] at h1
          rw [← h1]; exact hc
      obtain ⟨hql, hqe⟩ := List.getElem?_eq_some_iff.1 hc'
      refine ⟨fun r _ h5r => g.wrote r (by simp only; omega) h5r, ?_, by simp only; omega⟩
      have := g.out
      simp only at this ⊢
      rw [this, show 5 + q - 5 = q by omega, show 5 + q + 1 - 5 = q + 1 by omega, List.take_add_one, hc']
      rfl
    · rw [List.getElem?_set_ne hij] at hs
      exact hi.good j s hs

/-- C89, what holds although the goroutines of incoming connections write the head of the message at the same time: whatever was in the first five bytes, and however many
connections come in, what is sent on each of them is the beginning of the right message, and all of it once all bytes are read. -/
theorem C89_head_harmless_partial (b : Bitfield) (hb : Wf b) (hf : Fits (.bitfield b.data)) (σ : State) (hr : Reach (Step b) ⟨b.data5, []⟩ σ) (i : Nat) (s : Sender)
    (hs : σ.senders[i]? = some s) : s.out <+: wire (.bitfield b.data) ∧ (s.pos = 5 + b.data5.length → s.out = wire (.bitfield b.data)) := by
  have hm := C10_encode_wire_partial.2.2.2.2.2.2.2 b hb hf
  have hlen : 5 ≤ b.data5.length := by have := hb.len; have := hb.lo; have := hb.hi; omega
  have he : wire (.bitfield b.data) = head b ++ b.data5.drop 5 := by
    have hm' : (NewMsgBitfield b).fillBase b.data5 = .ok (wire (.bitfield b.data)) := hm
    unfold Msg.fillBase at hm'
    rw [if_neg (by omega)] at hm'
    exact (Res.ok.inj hm').symm
  have hhead : (head b).length = 5 := rfl
  have h1 : (wire (.bitfield b.data)).take 5 = head b := by rw [he]; exact List.take_left' hhead
  have h2 : (wire (.bitfield b.data)).drop 5 = b.data5.drop 5 := by rw [he]; exact List.drop_left' hhead
  have h3 : (wire (.bitfield b.data)).length = b.data5.length := by rw [he, List.length_append, hhead, List.length_drop]; omega
  have hi : Inv (wire (.bitfield b.data)) ⟨b.data5, []⟩ := ⟨h3.symm, h2.symm, fun i s h => by simp at h⟩
  have g := (Reach.keep (Q := Inv _) (fun _ _ hi hs => inv_step h1 (by omega) hi hs) hr hi).good i s hs
  refine ⟨by rw [g.out]; exact List.take_prefix _ _, fun hp => ?_⟩
  rw [g.out, hp, show 5 + b.data5.length - 5 = (wire (.bitfield b.data)).length by omega, List.take_length]

/-- a bitfield of 12 pieces, of which the first is there -/
def exBf : Bitfield := ⟨[0, 0, 0, 0, 0, 128, 0], 2, 12, 1⟩

example : Wf exBf ∧ Fits (.bitfield exBf.data) ∧ wire (.bitfield exBf.data) = [0, 0, 0, 3, 5, 128, 0] := by
  refine ⟨⟨by decide, by decide, by decide, by decide⟩, by unfold Fits; decide +kernel, by decide +kernel⟩

/-- two goroutines at the same time: the second one has written two bytes while the first one is reading -/
example : ∃ σ, Reach (Step exBf) ⟨exBf.data5, []⟩ σ ∧ σ.senders = [⟨6, [0]⟩, ⟨2, []⟩] := by
  refine ⟨_, .head .enter (.head .enter (.head (.write 0 0 [] _ rfl (by decide) rfl) (.head (.write 0 1 [] _ rfl (by decide) rfl)
    (.head (.write 1 0 [] _ rfl (by decide) rfl) (.head (.write 0 2 [] _ rfl (by decide) rfl) (.head (.write 0 3 [] _ rfl (by decide) rfl)
    (.head (.write 0 4 [] _ rfl (by decide) rfl) (.head (.read 0 0 [] _ rfl rfl) (.head (.write 1 1 [] _ rfl (by decide) rfl) .refl))))))))), rfl⟩

end Verif.HeadRace
