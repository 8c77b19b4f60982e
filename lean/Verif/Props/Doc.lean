import Verif.Lemmas.BencodeDoc
import Verif.Lemmas.ValueEq
/-
Property C64: the language accepted by Decode (/repo/src/bencode/decode.go).
-/
set_option autoImplicit false

namespace Verif.Bencode
open Spec Verif.Size

/-- C64: whatever is decoded is a document for the returned value, at the start of the input. -/
theorem C64_sound (data : Bytes) (v : Value) (h : Decode data [] = .ok v) :
    ∃ b rest, data = b ++ rest ∧ Parses v b := by
  obtain ⟨r, h⟩ := (decode_ok_iff _ _ _).mp h
  obtain ⟨b, hb, hp⟩ := (decode_parses _).1 _ _ _ h
  exact ⟨b, r, hb, hp⟩

/-- C64: every document is decoded, whatever follows it and whatever the capacity of the slice, to the value it is a
document for. -/
theorem C64_complete (v : Value) (b : Bytes) (h : Parses v b) (rest sp : Bytes) :
    ∃ w, Decode (b ++ rest) sp = .ok w ∧ Same v w := by
  obtain ⟨w, hw, hs⟩ := decodeValue_doc h (2 * (b ++ rest).length + 1) sp rest (by simp; omega)
  exact ⟨w, (decode_ok_iff _ _ _).mpr ⟨rest, hw⟩, hs⟩

/-- C64: acceptance is exactly "starts with a document". -/
theorem C64_accepts_iff (data : Bytes) :
    (∃ v, Decode data [] = .ok v) ↔ ∃ v b rest, data = b ++ rest ∧ Parses v b := by
  constructor
  · rintro ⟨v, h⟩; exact ⟨v, C64_sound data v h⟩
  · rintro ⟨v, b, rest, rfl, h⟩
    obtain ⟨w, hw, -⟩ := C64_complete v b h rest []
    exact ⟨w, hw⟩

/-- C64: the language is unambiguous and prefix-free: input determines where the document ends and its value. -/
theorem C64_unambiguous (v w : Value) (b b' r r' : Bytes) (h : Parses v b) (h' : Parses w b') (he : b ++ r = b' ++ r') :
    b = b' ∧ r = r' ∧ Same v w := parses_unique h h' he

/-- C64: decoded values are real maps with lengths and integers that fit. -/
theorem C64_values (data : Bytes) (v : Value) (h : Decode data [] = .ok v) :
    IsMap v ∧ LenOk v ∧ AllInts (fun i => -2 ^ 63 < i ∧ i < 2 ^ 63) v := by
  obtain ⟨b, _, -, hp⟩ := C64_sound data v h
  exact parses_isMap hp

/-- hypotheses are met by a lenient document: leading zero in a length, "-0", unsorted and repeated keys, empty string -/
theorem lenientSample : Parses (.dict [(ascii "b", .str []), (ascii "a", .list [.int64 0])]) (ascii "d01:bi1e1:ali-0ee1:b0:e") := by
  have s1 : StrDoc (ascii "b") (ascii "01:b") := ⟨ascii "01", ⟨by decide, by decide, by decide⟩, by decide, by decide⟩
  have s2 : StrDoc (ascii "a") (ascii "1:a") := ⟨ascii "1", ⟨by decide, by decide, by decide⟩, by decide, by decide⟩
  have s3 : StrDoc (ascii "b") (ascii "1:b") := ⟨ascii "1", ⟨by decide, by decide, by decide⟩, by decide, by decide⟩
  have s4 : StrDoc [] (ascii "0:") := ⟨ascii "0", ⟨by decide, by decide, by decide⟩, by decide, by decide⟩
  have i1 : IntDoc 1 (ascii "i1e") := ⟨ascii "1", ⟨by decide, by decide, by decide⟩, by decide, .inl (by decide)⟩
  have i2 : IntDoc 0 (ascii "i-0e") := ⟨ascii "0", ⟨by decide, by decide, by decide⟩, by decide, .inr (by decide)⟩
  have l1 : Parses (.list [.int64 0]) (ascii "li-0ee") := by
    have := Parses.list [(.int64 0, ascii "i-0e")] (by intro p hp; simp only [List.mem_singleton] at hp; subst hp; exact .int _ _ i2)
    exact this
  have := Parses.dict [⟨ascii "b", ascii "01:b", .int64 1, ascii "i1e"⟩, ⟨ascii "a", ascii "1:a", .list [.int64 0], ascii "li-0ee"⟩,
      ⟨ascii "b", ascii "1:b", .str [], ascii "0:"⟩] [(ascii "b", .str []), (ascii "a", .list [.int64 0])]
    (by
      intro e he
      simp only [List.mem_cons, List.not_mem_nil, or_false] at he
      rcases he with rfl | rfl | rfl <;> assumption)
    (by
      intro e he
      simp only [List.mem_cons, List.not_mem_nil, or_false] at he
      rcases he with rfl | rfl | rfl
      · exact .int _ _ i1
      · exact l1
      · exact .str _ _ s4)
    (assign_lastWins [(ascii "b", .int64 1), (ascii "a", .list [.int64 0]), (ascii "b", .str [])])
  exact this

example : Decode (ascii "d01:bi1e1:ali-0ee1:b0:etrailing") [] =
    .ok (.dict [(ascii "b", .str []), (ascii "a", .list [.int64 0])]) := by decide +kernel
example : Decode (ascii "i01e") [] = .err .decoder ∧ Decode (ascii "i+1e") [] = .err .decoder := by decide +kernel

end Verif.Bencode
