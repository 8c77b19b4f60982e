import Verif.Props.Bencode
import Verif.Props.Handles
import Verif.Props.MsgWire
/-
Exactly when typed access, closing and bitfields do what is claimed (C09, C45, C77).
-/
set_option autoImplicit false

namespace Verif.Bencode

/-- **C09**, GetUint exactly: the number returned is below 2^64 and differs from the stored integer by a multiple of 2^64. -/
theorem C09_getUint_exact_partial (d : Dict) (hd : (d.map Prod.fst).Nodup) (k : Bytes) (n : Nat) :
    Dict.getUint d k = .ok n ↔ n < 2 ^ 64 ∧ ∃ i, (k, .int64 i) ∈ d ∧ ∃ q : Int, (n : Int) = i + q * 2 ^ 64 := by
  obtain ⟨h1, -, -⟩ := C09_getInt d hd k
  unfold Dict.getUint
  constructor
  · intro h
    cases hi : Dict.getInt d k with
    | ok i =>
      rw [hi] at h
      have e : (i % 2 ^ 64).toNat = n := by injection h
      refine ⟨by omega, i, (h1 i).mp hi, -(i / 2 ^ 64), ?_⟩
      omega
    | err e => rw [hi] at h; cases h
    | panic => rw [hi] at h; cases h
    | timeout => rw [hi] at h; cases h
  · rintro ⟨hn, i, hi, q, hq⟩
    rw [(h1 i).mpr hi]
    show Res.ok (i % 2 ^ 64).toNat = .ok n
    congr 1
    omega

example : (([(ascii "a", .int64 (-3))] : Dict).map Prod.fst).Nodup ∧ Dict.getUint [(ascii "a", .int64 (-3))] (ascii "a") = .ok (2 ^ 64 - 3) := by decide +kernel

end Verif.Bencode

namespace Verif.Handles
open Verif.HandlesSpec

/-- a call of `CloseAll` that meets a closed file first changes nothing -/
theorem closeAll_first {s : St} (hr : Reached s) {e : Bytes × Nat} (he : e ∈ s.lfps) (hc : ¬ Open s e.2) (t : List Nat) : s.CloseAll (e.2 :: t) = (s, .err .os) := by
  have hlt := (reached_wf hr).lt e he
  have hf : s.handles[e.2]? = some s.handles[e.2] := List.getElem?_eq_getElem hlt
  have ho : s.handles[e.2].isOpen = false := by
    cases h : s.handles[e.2].isOpen with
    | false => rfl
    | true => exact absurd ⟨_, hf, h⟩ hc
  rw [St.CloseAll]
  simp [closeHandle, hf, ho]

/-- **C77**, exactly: `CloseAll` succeeds in every order precisely if all files are open, and leaves no file open in any order precisely if all files were open or all were closed. -/
theorem C77_closeAll_iff_partial (s : St) (hr : Reached s) :
    ((∀ order : List Nat, order.Perm (s.lfps.map Prod.snd) → (s.CloseAll order).2 = .ok []) ↔ ∀ e ∈ s.lfps, Open s e.2) ∧
    ((∀ order : List Nat, order.Perm (s.lfps.map Prod.snd) → ∀ e ∈ s.lfps, ¬ Open (s.CloseAll order).1 e.2) ↔ (∀ e ∈ s.lfps, Open s e.2) ∨ ∀ e ∈ s.lfps, ¬ Open s e.2) := by
  refine ⟨⟨?_, fun ho order hp => (C77_closeAll_partial s hr ho order hp).1⟩, ⟨?_, ?_⟩⟩
  · intro h e he
    apply Classical.byContradiction
    intro hc
    obtain ⟨order, hp, e1⟩ := C77_refuted_closeAll s hr e he hc
    have := h order hp
    rw [e1] at this
    cases this
  · intro h
    apply Classical.byContradiction
    intro hn
    rw [not_or] at hn
    obtain ⟨h1, h2⟩ := hn
    obtain ⟨e, he, hc⟩ : ∃ e ∈ s.lfps, ¬ Open s e.2 := by
      apply Classical.byContradiction
      intro h'
      exact h1 fun e he => Classical.byContradiction fun hc => h' ⟨e, he, hc⟩
    apply h2
    intro e' he' ho
    obtain ⟨order, hp, e1⟩ := C77_refuted_closeAll s hr e he hc
    have := h order hp e' he'
    rw [e1] at this
    exact this ho
  · rintro (ho | hc) order hp
    · exact (C77_closeAll_partial s hr ho order hp).2
    · cases order with
      | nil =>
        intro e he
        exact hc e he
      | cons x t =>
        have hx : x ∈ s.lfps.map Prod.snd := hp.mem_iff.mp (.head _)
        rw [List.mem_map] at hx
        obtain ⟨e, he, rfl⟩ := hx
        rw [closeAll_first hr he (hc e he)]
        exact hc

/-- two open files; one of them closed; both closed -/
example : ((runAll exDisk [.ocat (ascii "a") 1 false, .ocat (ascii "b") 1 false]).1.handles.map (·.isOpen) = [true, true]) ∧
    ((runAll exDisk [.ocat (ascii "a") 1 false, .ocat (ascii "b") 1 false, .close (ascii "b") false]).1.handles.map (·.isOpen) = [true, false]) ∧
    ((runAll exDisk [.ocat (ascii "a") 1 false, .ocat (ascii "b") 1 false, .closeAll [0, 1]]).1.handles.map (·.isOpen) = [false, false]) := by decide +kernel

end Verif.Handles

namespace Verif.MsgHandler
open Verif.P2P Verif.Bf Verif.Files Verif.FileIO Verif.PieceTracker Verif.Layout Verif.Bits Verif.Wire Verif.Avail

/-- **C45**, exactly when: the peer is registered for exactly the pieces it announces precisely if it was registered for none but these before. -/
theorem C45_iff_partial {pl : Nat} {hashes : Bytes} {files : List EntryBase} {cs : List Bytes} {s : Swarm} {st : St}
    (h : Running pl hashes files cs s st.buf) (calls : List Call) (hr : Reached s.tor.numPieces calls st.ppt) (me : PH) (wok : Nat → Bool) (fuel : Nat)
    (p : Bytes) (hp : p ≠ []) (hl : p.length = (s.tor.numPieces + 7) / 8) (hs : p.length + 5 < 2 ^ 32) :
    (∃ st', handleMessage (fuel + 2) s me wok (wire (.bitfield p)) st = (st', .ok ()) ∧ ∀ i : Nat, i < s.tor.numPieces → (RegisteredFor st'.ppt i me.key ↔ bit p i = true)) ↔
      AtMost 63 (after calls) (((List.range s.tor.numPieces).filter (bit p)).map (Step.reg me.key)) ∧
      ∀ i : Nat, i < s.tor.numPieces → RegisteredFor st.ppt i me.key → bit p i = true := by
  obtain ⟨h1, h2⟩ := C45_right_size_partial h calls hr me wok fuel p hp hl hs
  constructor
  · rintro ⟨st', e, hreg⟩
    have hm : AtMost 63 (after calls) (((List.range s.tor.numPieces).filter (bit p)).map (Step.reg me.key)) := by
      apply Classical.byContradiction
      intro hn
      have := h2 hn
      rw [e] at this
      cases this
    refine ⟨hm, fun i hi hb => ?_⟩
    obtain ⟨st2, e2, -, -, -, -, -, -, hreg2⟩ := h1 hm
    rw [e] at e2
    cases e2
    exact (hreg i hi).mp ((hreg2 i hi me.key).mpr (.inl hb))
  · rintro ⟨hm, hb⟩
    obtain ⟨st2, e2, -, -, -, -, -, -, hreg2⟩ := h1 hm
    refine ⟨st2, e2, fun i hi => ?_⟩
    rw [hreg2 i hi]
    constructor
    · rintro (h | ⟨-, h⟩)
      · exact hb i hi h
      · exact h
    · intro h; exact .inr ⟨rfl, h⟩

/-- the hypotheses, and the right side with a peer that is registered for nothing yet -/
example : ∃ s t, Running 4 exHashes exFiles [[1, 2, 3, 4, 5], [], [6, 7, 8, 9, 10, 11, 12, 13]] s [91, 92, 93, 94] ∧ Reached s.tor.numPieces [] t ∧
    ([160] : Bytes).length = (s.tor.numPieces + 7) / 8 ∧
    AtMost 63 (after []) (((List.range s.tor.numPieces).filter (bit [160])).map (Step.reg [7])) ∧ ∀ i : Nat, i < s.tor.numPieces → RegisteredFor t i [7] → bit [160] i = true := by
  obtain ⟨s, h, hn, -⟩ := exRunning
  obtain ⟨t, e, iv, -⟩ := new_spec 4
  refine ⟨s, t, h, ⟨by rw [hn]; decide, (fun c hc => by cases hc), t, by rw [hn]; exact e, rfl⟩, by rw [hn]; rfl, ?_, ?_⟩
  · exact Session.few_atMost (me := ⟨0, [7]⟩) (keys := [[7]]) (calls := []) ⟨by simp, by simp, fun c hc => by cases hc⟩ _
  · intro i hi hr
    rw [hn] at hi
    rw [iv.registered i hi] at hr
    exact absurd hr List.not_mem_nil

end Verif.MsgHandler
