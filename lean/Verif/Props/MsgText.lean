import Verif.Model.MsgText
import Verif.Spec.MsgText
import Verif.Props.P2P
import Verif.Props.Show
/-
Property C100: the texts of the messages.
-/
set_option autoImplicit false

namespace Verif.MsgText
open Verif.P2P Verif.Wire Verif.Bencode Verif.Bencode.Spec Verif.ShowSpec Verif.MsgTextSpec Verif.Show

theorem elems_eq (bs : Bytes) : elems bs = List.intercalate [32] (bs.map fun b => decNat b.toNat) := by
  induction bs with
  | nil => rfl
  | cons b r ih =>
    cases r with
    | nil => simp [elems, List.intercalate, decNat_eq]
    | cons c r =>
      rw [elems, ih]
      · simp [List.intercalate, decNat_eq]
      · simp

theorem fmtBytes_eq (bs : Bytes) : fmtBytes bs = block bs := by rw [fmtBytes, elems_eq, block]

theorem natDec_one (n : Nat) : OneLine (natDec n) := (natDec_plain n).1

theorem elems_one (bs : Bytes) : OneLine (elems bs) := by
  induction bs with
  | nil => decide
  | cons b r ih =>
    cases r with
    | nil => exact natDec_one _
    | cons c r =>
      rw [elems]
      · exact OneLine.append (natDec_one _) (by intro h; cases h with | tail _ h => exact ih h)
      · simp

/-- no list of numbers begins with the closing bracket -/
theorem elems_head (b : UInt8) (bs r : Bytes) : elems (b :: bs) ++ [93] ≠ 93 :: r := by
  obtain ⟨c, t, h1, h2⟩ := natDec_cons b.toNat
  intro h
  have : ∃ t', elems (b :: bs) = c :: t' := by
    cases bs with
    | nil => exact ⟨t, h1⟩
    | cons x xs => exact ⟨t ++ 32 :: elems (x :: xs), by rw [elems, h1]; rfl; simp⟩
  obtain ⟨t', e⟩ := this
  rw [e] at h
  simp only [List.cons_append, List.cons.injEq] at h
  rw [h.1] at h2
  exact absurd h2 (by decide)

theorem elems_inj : ∀ (bs bs' : Bytes), elems bs ++ [93] = elems bs' ++ [93] → bs = bs'
  | [], [], _ => rfl
  | [], b :: bs, h => absurd h.symm (elems_head b bs [])
  | b :: bs, [], h => absurd h (elems_head b bs [])
  | [b], [b'], h => by
    simp only [elems, ← decNat_eq] at h
    have := (decNat_split (by decide) (by decide) h).1
    rw [UInt8.toNat_inj.mp this]
  | [b], b' :: c' :: r', h => by
    rw [elems, elems, ← decNat_eq, ← decNat_eq, List.append_assoc] at h
    · have := (decNat_split (by decide) (by decide) h).2
      exact absurd (congrArg List.length this) (by simp)
    · simp
  | b :: c :: r, [b'], h => by
    rw [elems, elems, ← decNat_eq, ← decNat_eq, List.append_assoc] at h
    · have := (decNat_split (by decide) (by decide) h).2
      exact absurd (congrArg List.length this) (by simp)
    · simp
  | b :: c :: r, b' :: c' :: r', h => by
    have e : ∀ (b c : UInt8) (r : Bytes), elems (b :: c :: r) ++ [93] = decNat b.toNat ++ 32 :: (elems (c :: r) ++ [93]) := fun b c r => by
      rw [elems, decNat_eq, List.append_assoc]
      · rfl
      · simp
    rw [e, e] at h
    obtain ⟨h1, h2⟩ := decNat_split (by decide) (by decide) h
    rw [UInt8.toNat_inj.mp h1, elems_inj (c :: r) (c' :: r') h2]

/-- **C100**: the text of a message has a line with the kind of the message and one line with each of its fields. -/
theorem C100_lines (m : P2P.Msg) : lines (mString m) = textLines m.view := by
  have hd : ∀ {l : String} (n : Nat), OneLine (ascii l) → OneLine (ascii l ++ decNat n) := fun n h =>
    OneLine.append h (by rw [decNat_eq]; exact natDec_one n)
  cases m with
  | keepAlive => exact lines_one _ (by decide)
  | choke => exact lines_one _ (by decide)
  | unchoke => exact lines_one _ (by decide)
  | interested => exact lines_one _ (by decide)
  | notInterested => exact lines_one _ (by decide)
  | «have» i =>
    have : mString (.have i) = ascii "Message: Have" ++ 10 :: (ascii "Index: " ++ decNat i.toNat) := by rw [decNat_eq]; rfl
    rw [this, lines_cons _ _ (by decide), lines_one _ (hd _ (by decide))]
    rfl
  | bitfield l b =>
    have : mString (.bitfield l b) = ascii "Message: Bitfield" ++ 10 :: [] := rfl
    rw [this, lines_cons _ _ (by decide)]
    rfl
  | request i b l =>
    have : mString (.request i b l) = ascii "Message: Request" ++ 10 :: (ascii "Index: " ++ decNat i.toNat ++ 10 :: (ascii "Begin: " ++ decNat b.toNat ++ 10 ::
        (ascii "Req Len: " ++ decNat l.toNat))) := by
      simp only [decNat_eq, mString, show ascii "Message: Request\n" = ascii "Message: Request" ++ [10] from rfl, show ascii "\n" = [10] from rfl,
        List.append_assoc, List.cons_append, List.nil_append]
    rw [this, lines_cons _ _ (by decide), lines_cons _ _ (hd _ (by decide)), lines_cons _ _ (hd _ (by decide)), lines_one _ (hd _ (by decide))]
    rfl
  | piece n i b blk =>
    have hb : OneLine (fmtBytes blk) := OneLine.append (OneLine.append (by decide) (elems_one _)) (by decide)
    have : mString (.piece n i b blk) = ascii "Message: Piece" ++ 10 :: (ascii "Index: " ++ decNat i.toNat ++ 10 :: (ascii "Begin: " ++ decNat b.toNat ++ 10 ::
        (ascii "Block: " ++ fmtBytes blk))) := by
      simp only [decNat_eq, mString, show ascii "Message: Piece\n" = ascii "Message: Piece" ++ [10] from rfl, show ascii "\n" = [10] from rfl,
        List.append_assoc, List.cons_append, List.nil_append]
    rw [this, lines_cons _ _ (by decide), lines_cons _ _ (hd _ (by decide)), lines_cons _ _ (hd _ (by decide)),
      lines_one _ (OneLine.append (by decide) hb), fmtBytes_eq]
    rfl

example : lines (mString (.piece 11 3 0 [1, 0, 255])) = textLines (.piece 3 0 [1, 0, 255]) := C100_lines _
#guard mString (.piece 11 3 0 [1, 0, 255]) == ascii "Message: Piece\nIndex: 3\nBegin: 0\nBlock: [1 0 255]"
#guard mString (.piece 8 3 0 []) == ascii "Message: Piece\nIndex: 3\nBegin: 0\nBlock: []"
#guard mString (.request 1 2 4294967295) == ascii "Message: Request\nIndex: 1\nBegin: 2\nReq Len: 4294967295"
#guard baseString (.have 7) == ascii "Base Message\n  Type: 4\nLength: 5"

/-- **C100**: the text that messages have in common has a line with their type and one with their length. -/
theorem C100_base (m : P2P.Msg) : lines (baseString m) = [ascii "Base Message", ascii "  Type: " ++ decNat m.Mtype.toNat, ascii "Length: " ++ decNat m.Length.toNat] := by
  have hd : ∀ {l : String} (n : Nat), OneLine (ascii l) → OneLine (ascii l ++ decNat n) := fun n h =>
    OneLine.append h (by rw [decNat_eq]; exact natDec_one n)
  have : baseString m = ascii "Base Message" ++ 10 :: (ascii "  Type: " ++ decNat m.Mtype.toNat ++ 10 :: (ascii "Length: " ++ decNat m.Length.toNat)) := by
    simp only [decNat_eq, baseString, show ascii "Base Message\n" = ascii "Base Message" ++ [10] from rfl, show ascii "\n" = [10] from rfl,
      List.append_assoc, List.cons_append, List.nil_append]
  rw [this, lines_cons _ _ (by decide), lines_cons _ _ (hd _ (by decide)), lines_one _ (hd _ (by decide))]

example : lines (baseString (.have 7)) = [ascii "Base Message", ascii "  Type: 4", ascii "Length: 5"] := by decide +kernel

theorem u32_line {l : Bytes} {a b : UInt32} (h : l ++ decNat a.toNat = l ++ decNat b.toNat) : a = b :=
  UInt32.toNat_inj.mp (Verif.Show.decNat_inj (List.append_cancel_left h))

/-- the lines tell the message -/
theorem textLines_inj (w w' : Wire.Msg) (h : textLines w = textLines w') : w = w' ∨ (IsBitfield w ∧ IsBitfield w') := by
  have hne : ∀ {a b : Bytes} {r r' : List Bytes}, a ≠ b → a :: r = b :: r' → False := fun hn he => hn (List.cons.inj he).1
  cases w <;> cases w' <;> first
    | exact .inl rfl
    | exact .inr ⟨trivial, trivial⟩
    | exact (hne (by decide) h).elim
    | skip
  · simp only [textLines, List.cons.injEq, and_true, true_and] at h
    rw [u32_line h]; exact .inl rfl
  · simp only [textLines, List.cons.injEq, and_true, true_and] at h
    rw [u32_line h.1, u32_line h.2.1, u32_line h.2.2]; exact .inl rfl
  · simp only [textLines, List.cons.injEq, and_true, true_and, ← fmtBytes_eq] at h
    rw [u32_line h.1, u32_line h.2.1, elems_inj _ _ (List.append_cancel_left ((List.append_assoc _ _ _).symm.trans
      ((List.append_cancel_left h.2.2).trans (List.append_assoc _ _ _))))]
    exact .inl rfl

theorem same_bitfield (l l' : UInt32) (b b' : Bf.Bitfield) : mString (.bitfield l b) = mString (.bitfield l' b') := rfl

/-- **C100** (partial: the text of a bitfield does not show its bits, see `C100_refuted_bitfield`): two messages have the same text exactly if they are the same message, or both are bitfields. -/
theorem C100_tells_partial (m m' : P2P.Msg) : mString m = mString m' ↔ m.view = m'.view ∨ (IsBitfield m.view ∧ IsBitfield m'.view) := by
  constructor
  · intro h
    exact textLines_inj _ _ (by rw [← C100_lines, ← C100_lines, h])
  · rintro (h | ⟨h, h'⟩)
    · cases m <;> cases m' <;> first
        | (cases h; done)
        | (cases h; rfl)
        | exact same_bitfield _ _ _ _
    · cases m <;> cases h
      cases m' <;> cases h'
      exact same_bitfield _ _ _ _

/-- **C100**, refuted for bitfields: the text of a bitfield does not say which pieces its sender has; a peer with everything and a peer with
nothing look the same. -/
theorem C100_refuted_bitfield : ∃ m m' : P2P.Msg, m.view ≠ m'.view ∧ mString m = mString m' :=
  ⟨.bitfield 2 ⟨[0, 0, 0, 0, 5, 255], 1, 8, 8⟩, .bitfield 2 ⟨[0, 0, 0, 0, 5, 0], 1, 8, 0⟩, by decide, same_bitfield _ _ _ _⟩

end Verif.MsgText
