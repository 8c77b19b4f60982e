import Verif.Model.P2P
import Verif.Spec.Wire
import Verif.Lemmas.Bitfield
/-
Helper lemmas for the message properties.
-/
set_option autoImplicit false

namespace Verif.P2P
open Verif.Bf Verif.Wire

/-! ### big-endian numbers -/

theorem putU32_eq (v : UInt32) : putU32 v = be32 v.toNat := by
  unfold putU32 be32
  have h (k : Nat) : (v.toNat >>> k) = v.toNat / 2 ^ k := Nat.shiftRight_eq_div_pow _ _
  congr 1
  · apply UInt8.toNat.inj
    simp [Nat.shiftRight_eq_div_pow]
  congr 1
  · apply UInt8.toNat.inj
    simp [Nat.shiftRight_eq_div_pow]
  congr 1
  · apply UInt8.toNat.inj
    simp [Nat.shiftRight_eq_div_pow]

theorem prefixLen_cons (b0 b1 b2 b3 : UInt8) (r : Bytes) :
    prefixLen (b0 :: b1 :: b2 :: b3 :: r) =
      2 ^ 24 * b0.toNat + 2 ^ 16 * b1.toNat + 2 ^ 8 * b2.toNat + b3.toNat := by
  simp only [prefixLen, List.take_succ_cons, List.take_zero, List.foldl_cons, List.foldl_nil]
  omega

theorem or_low (x k y : Nat) (h : y < 2 ^ k) : y ||| (x <<< k) = 2 ^ k * x + y := by
  rw [Nat.or_comm, ← Nat.shiftLeft_add_eq_or_of_lt h, Nat.shiftLeft_eq, Nat.mul_comm]

theorem getU32_cons (b0 b1 b2 b3 : UInt8) (r : Bytes) :
    getU32 (b0 :: b1 :: b2 :: b3 :: r) = .ok (UInt32.ofNat (prefixLen (b0 :: b1 :: b2 :: b3 :: r))) := by
  rw [prefixLen_cons, getU32]
  congr 1
  apply UInt32.toNat.inj
  have h0 := b0.toNat_lt; have h1 := b1.toNat_lt; have h2 := b2.toNat_lt; have h3 := b3.toNat_lt
  have e : (UInt32.ofNat (2 ^ 24 * b0.toNat + 2 ^ 16 * b1.toNat + 2 ^ 8 * b2.toNat + b3.toNat)).toNat =
      2 ^ 24 * b0.toNat + 2 ^ 16 * b1.toNat + 2 ^ 8 * b2.toNat + b3.toNat :=
    UInt32.toNat_ofNat_of_lt' (by simp only [UInt32.size]; omega)
  rw [e]
  simp only [UInt32.toNat_or, UInt32.toNat_shiftLeft, UInt8.toNat_toUInt32]
  have s8 : (8 : UInt32).toNat % 32 = 8 := rfl
  have s16 : (16 : UInt32).toNat % 32 = 16 := rfl
  have s24 : (24 : UInt32).toNat % 32 = 24 := rfl
  rw [s8, s16, s24]
  have m (b k : Nat) (hb : b < 2 ^ 8) (hk : k ≤ 24) : (b <<< k) % 2 ^ 32 = b <<< k := by
    apply Nat.mod_eq_of_lt
    rw [Nat.shiftLeft_eq]
    calc b * 2 ^ k < 2 ^ 8 * 2 ^ k := Nat.mul_lt_mul_of_pos_right hb (Nat.two_pow_pos k)
      _ ≤ 2 ^ 8 * 2 ^ 24 := Nat.mul_le_mul_left _ (Nat.pow_le_pow_right (by decide) hk)
      _ = 2 ^ 32 := by decide
  rw [m _ 8 h2 (by decide), m _ 16 h1 (by decide), m _ 24 h0 (by decide)]
  rw [or_low _ 8 _ h3, or_low _ 16 _ (by omega), or_low _ 24 _ (by omega)]
  omega

theorem prefixLen_lt (data : Bytes) : prefixLen data < 2 ^ 32 := by
  match data with
  | [] => simp [prefixLen]
  | [b0] =>
    have h0 := b0.toNat_lt
    simp [prefixLen]; omega
  | [b0, b1] =>
    have h0 := b0.toNat_lt; have h1 := b1.toNat_lt
    simp [prefixLen]; omega
  | [b0, b1, b2] =>
    have h0 := b0.toNat_lt; have h1 := b1.toNat_lt; have h2 := b2.toNat_lt
    simp [prefixLen]; omega
  | b0 :: b1 :: b2 :: b3 :: r =>
    have h0 := b0.toNat_lt; have h1 := b1.toNat_lt; have h2 := b2.toNat_lt; have h3 := b3.toNat_lt
    rw [prefixLen_cons]; omega

theorem ofNat_prefixLen (data : Bytes) : (UInt32.ofNat (prefixLen data)).toNat = prefixLen data :=
  UInt32.toNat_ofNat_of_lt' (prefixLen_lt data)

theorem be32_length (n : Nat) : (be32 n).length = 4 := rfl

theorem prefixLen_be32 (n : Nat) (r : Bytes) (h : n < 2 ^ 32) : prefixLen (be32 n ++ r) = n := by
  unfold be32
  simp only [List.cons_append, List.nil_append]
  rw [prefixLen_cons]
  simp only [UInt8.toNat_ofNat']
  omega

theorem getU32_be32 (v : UInt32) (r : Bytes) : getU32 (be32 v.toNat ++ r) = .ok v := by
  have := getU32_cons (UInt8.ofNat (v.toNat / 2 ^ 24)) (UInt8.ofNat (v.toNat / 2 ^ 16))
    (UInt8.ofNat (v.toNat / 2 ^ 8)) (UInt8.ofNat v.toNat) r
  have e : (be32 v.toNat ++ r) = UInt8.ofNat (v.toNat / 2 ^ 24) :: UInt8.ofNat (v.toNat / 2 ^ 16) ::
    UInt8.ofNat (v.toNat / 2 ^ 8) :: UInt8.ofNat v.toNat :: r := rfl
  rw [e, this, ← e, prefixLen_be32 _ _ v.toNat_lt]
  simp

theorem prefixLen_append (data r : Bytes) (h : 4 ≤ data.length) : prefixLen (data ++ r) = prefixLen data := by
  unfold prefixLen; rw [List.take_append_of_le_length h]

/-! ### Decode in terms of numbers -/

theorem slice_ok {s : Bytes} {lo hi : Nat} (h1 : lo ≤ hi) (h2 : hi ≤ s.length) :
    slice s lo hi = .ok ((s.take hi).drop lo) := by
  unfold slice; rw [if_pos ⟨h1, h2⟩]

theorem slice_panic {s : Bytes} {lo hi : Nat} (h1 : hi < lo) : slice s lo hi = .panic := by
  unfold slice; rw [if_neg (by omega)]

/-- `Decode` of a complete frame with length `l` and type `t` -/
def frameCase (data : Bytes) (l t : Nat) : Res DecodeResult :=
  match t with
  | 0 => .ok ⟨some .choke, 5⟩
  | 1 => .ok ⟨some .unchoke, 5⟩
  | 2 => .ok ⟨some .interested, 5⟩
  | 3 => .ok ⟨some .notInterested, 5⟩
  | 4 => withRead 9 (DecodeMsgHave ((data.take (4 + l)).drop 5))
  | 5 => withReadBitfield (DecodeMsgBitfield data (UInt32.ofNat l))
  | 6 => withRead 17 (DecodeMsgRequest ((data.take (4 + l)).drop 5))
  | 7 => .panic
  | _ => .ok ⟨none, data.length⟩

theorem decode_cases (b0 b1 b2 b3 t : UInt8) (r : Bytes) (l : Nat)
    (hl : prefixLen (b0 :: b1 :: b2 :: b3 :: t :: r) = l) :
    Decode (b0 :: b1 :: b2 :: b3 :: t :: r) =
      if l = 0 then .ok ⟨some .keepAlive, 4⟩
      else if t.toNat ≤ 3 ∧ l ≠ 1 then .ok ⟨none, 5 + r.length⟩
      else if (5 + r.length) % 2 ^ 32 < (4 + l) % 2 ^ 32 then .ok ⟨none, 5 + r.length⟩
      else if 2 ^ 32 - 4 ≤ l then .panic
      else frameCase (b0 :: b1 :: b2 :: b3 :: t :: r) l t.toNat := by
  have hlt := prefixLen_lt (b0 :: b1 :: b2 :: b3 :: t :: r)
  rw [hl] at hlt
  have hpre : prefixLen [b0, b1, b2, b3] = l := by
    rw [← hl, prefixLen_cons, prefixLen_cons]
  have htn : (UInt32.ofNat l).toNat = l := UInt32.toNat_ofNat_of_lt' hlt
  have hlen : (b0 :: b1 :: b2 :: b3 :: t :: r).length = 5 + r.length := by
    simp only [List.length_cons]; omega
  unfold Decode
  rw [if_neg (by omega)]
  have htake : (b0 :: b1 :: b2 :: b3 :: t :: r).take 4 = [b0, b1, b2, b3] := rfl
  rw [htake, getU32_cons, hpre]
  simp only [Res.ok_bind, List.getElem?_cons_succ, List.getElem?_cons_zero]
  have e0 : (UInt32.ofNat l = 0) ↔ l = 0 := by
    rw [← UInt32.toNat_inj, htn]; rfl
  have e1 : (UInt32.ofNat l = 1) ↔ l = 1 := by
    rw [← UInt32.toNat_inj, htn]; rfl
  by_cases h0 : l = 0
  · rw [if_pos (e0.mpr h0), if_pos h0]
  · rw [if_neg (fun h => h0 (e0.mp h)), if_neg h0]
    unfold decodeTyped
    rw [hlen]
    have et : (t ≤ 3 ∧ UInt32.ofNat l ≠ 1) ↔ (t.toNat ≤ 3 ∧ l ≠ 1) := by
      rw [UInt8.le_iff_toNat_le, Ne, Ne, e1]; rfl
    by_cases h1 : t.toNat ≤ 3 ∧ l ≠ 1
    · rw [if_pos (et.mpr h1), if_pos h1]
    · rw [if_neg (fun h => h1 (et.mp h)), if_neg h1]
      have hadd : (4 + UInt32.ofNat l).toNat = (4 + l) % 2 ^ 32 := by
        rw [UInt32.toNat_add, htn]; rfl
      have hadd5 : (5 + UInt32.ofNat l - 1).toNat = (4 + l) % 2 ^ 32 := by
        rw [← hadd]; congr 1
        rw [show (5 : UInt32) = 1 + 4 from rfl, UInt32.add_assoc]
        rw [UInt32.add_comm 1, UInt32.add_sub_cancel]
      have hofn : (UInt32.ofNat (5 + r.length)).toNat = (5 + r.length) % 2 ^ 32 := by
        rw [UInt32.toNat_ofNat']
      have hcmp : UInt32.ofNat (5 + r.length) < 4 + UInt32.ofNat l ↔ (5 + r.length) % 2 ^ 32 < (4 + l) % 2 ^ 32 := by
        rw [UInt32.lt_iff_toNat_lt, hadd, hofn]
      by_cases h3 : (5 + r.length) % 2 ^ 32 < (4 + l) % 2 ^ 32
      · rw [if_pos (hcmp.mpr h3), if_pos h3]
      · rw [if_neg (fun h => h3 (hcmp.mp h)), if_neg h3, hadd5]
        by_cases h2 : 2 ^ 32 - 4 ≤ l
        · rw [if_pos h2, slice_panic (by omega)]
          rfl
        · have hw : (4 + l) % 2 ^ 32 = 4 + l := by omega
          rw [hw] at h3
          rw [if_neg h2, hw, slice_ok (by omega) (by rw [hlen]; omega)]
          simp only [Res.ok_bind]
          unfold frameCase
          split <;> rename_i ht <;> simp only [ht]
          · -- piece: the payload is one byte shorter than the length it is compared with
            unfold DecodeMsgPiece
            rw [if_pos]
            · rfl
            · intro hc
              have := congrArg UInt32.toNat hc
              rw [htn, UInt32.toNat_ofNat', List.length_drop, List.length_take, hlen] at this
              omega
          · rw [hlen]

/-! ### frames -/

theorem be32_prefixLen (b0 b1 b2 b3 : UInt8) (r : Bytes) :
    be32 (prefixLen (b0 :: b1 :: b2 :: b3 :: r)) = [b0, b1, b2, b3] := by
  have h0 := b0.toNat_lt; have h1 := b1.toNat_lt; have h2 := b2.toNat_lt; have h3 := b3.toNat_lt
  rw [prefixLen_cons]
  unfold be32
  congr 1
  · apply UInt8.toNat.inj; simp only [UInt8.toNat_ofNat']; omega
  congr 1
  · apply UInt8.toNat.inj; simp only [UInt8.toNat_ofNat']; omega
  congr 1
  · apply UInt8.toNat.inj; simp only [UInt8.toNat_ofNat']; omega
  congr 1
  · apply UInt8.toNat.inj; simp only [UInt8.toNat_ofNat']; omega

/-- every input of at least five bytes is a length prefix, a type byte and something -/
theorem split_frame (data : Bytes) (h : 5 ≤ data.length) :
    ∃ t r, data = be32 (prefixLen data) ++ t :: r := by
  match data, h with
  | b0 :: b1 :: b2 :: b3 :: t :: r, _ =>
    exact ⟨t, r, by rw [be32_prefixLen]; rfl⟩

theorem decode_be32 (l : Nat) (hlt : l < 2 ^ 32) (t : UInt8) (r : Bytes) :
    Decode (be32 l ++ t :: r) =
      if l = 0 then .ok ⟨some .keepAlive, 4⟩
      else if t.toNat ≤ 3 ∧ l ≠ 1 then .ok ⟨none, 5 + r.length⟩
      else if (5 + r.length) % 2 ^ 32 < (4 + l) % 2 ^ 32 then .ok ⟨none, 5 + r.length⟩
      else if 2 ^ 32 - 4 ≤ l then .panic
      else frameCase (be32 l ++ t :: r) l t.toNat :=
  decode_cases _ _ _ _ t r l (prefixLen_be32 l (t :: r) hlt)

theorem getU32_of_len (p : Bytes) (h : 4 ≤ p.length) : getU32 p = .ok (UInt32.ofNat (prefixLen p)) := by
  match p, h with
  | b0 :: b1 :: b2 :: b3 :: r, _ => exact getU32_cons ..

theorem ofNat_ne {n k : Nat} (hn : n < 2 ^ 32) (hk : k < 2 ^ 32) (h : n ≠ k) : UInt32.ofNat n ≠ UInt32.ofNat k := by
  intro hc
  have := congrArg UInt32.toNat hc
  rw [UInt32.toNat_ofNat_of_lt' hn, UInt32.toNat_ofNat_of_lt' hk] at this
  exact h this

theorem decodeHave_eq (p : Bytes) (h : p.length < 2 ^ 32) :
    DecodeMsgHave p = if p.length = 4 then .ok (.have (UInt32.ofNat (prefixLen p))) else .err .other := by
  unfold DecodeMsgHave
  by_cases h4 : p.length = 4
  · rw [if_pos h4, if_neg (by rw [h4]; decide), getU32_of_len p (by omega)]
    rfl
  · rw [if_neg h4, if_pos (show UInt32.ofNat p.length ≠ 4 from ofNat_ne h (by decide) h4)]

theorem decodeRequest_eq (p : Bytes) (h : p.length < 2 ^ 32) :
    DecodeMsgRequest p = if p.length = 12 then
      .ok (.request (UInt32.ofNat (prefixLen p)) (UInt32.ofNat (prefixLen (p.drop 4))) (UInt32.ofNat (prefixLen (p.drop 8))))
      else .err .other := by
  unfold DecodeMsgRequest
  by_cases h4 : p.length = 12
  · rw [if_pos h4, if_neg (by rw [h4]; decide)]
    rw [slice_ok (by omega) (by omega), slice_ok (by omega) (by omega), slice_ok (by omega) (by omega)]
    simp only [Res.ok_bind]
    rw [getU32_of_len _ (by simp; omega), getU32_of_len _ (by simp; omega), getU32_of_len _ (by simp; omega)]
    simp only [Res.ok_bind]
    unfold NewMsgRequest
    have e1 : prefixLen ((p.take 4).drop 0) = prefixLen p := by
      unfold prefixLen; rw [List.drop_zero, List.take_take]; simp
    have e2 : prefixLen ((p.take 8).drop 4) = prefixLen (p.drop 4) := by
      unfold prefixLen; congr 1; rw [List.drop_take, List.take_take]; simp
    have e3 : prefixLen ((p.take 12).drop 8) = prefixLen (p.drop 8) := by
      unfold prefixLen; congr 1; rw [List.drop_take, List.take_take]; simp
    rw [e1, e2, e3]
  · rw [if_neg h4, if_pos (show UInt32.ofNat p.length ≠ 12 from ofNat_ne h (by decide) h4)]

/-- the bitfield stored for a complete bitfield frame -/
def rxBitfield (p : Bytes) : Bitfield :=
  { data5 := be32 (1 + p.length) ++ 5 :: p, nbytes := p.length, nbits := 8 * p.length,
    nset := Bits.count (Bits.bit p) (8 * p.length) }

theorem fromBytes_full (hdr p : Bytes) (hh : hdr.length = 5) (hp : p ≠ []) :
    FromBytes (hdr ++ p) ((p.length * 8 : Nat) : Int) =
      .ok { data5 := hdr ++ p, nbytes := p.length, nbits := 8 * p.length, nset := Bits.count (Bits.bit p) (8 * p.length) } := by
  have hpos : 0 < p.length := List.length_pos_iff.mpr hp
  unfold FromBytes
  have hd : (hdr ++ p).drop 5 = p := by rw [← hh, List.drop_left]
  simp only [List.length_append, hh, hd]
  rw [if_neg (by omega), if_neg (by omega), calcNset_eq p _ (by omega) (by omega)]
  simp only [Res.ok_bind]
  congr 2
  · omega
  · omega
  · rw [Nat.mul_comm]

theorem decodeBitfield_eq (p rest : Bytes) (l : Nat) (hl : p.length + 1 = l) (hlt : l < 2 ^ 32 - 4) :
    DecodeMsgBitfield (be32 l ++ 5 :: (p ++ rest)) (UInt32.ofNat l) =
      if p = [] then .err .other else .ok (.bitfield (UInt32.ofNat l) (rxBitfield p)) := by
  unfold DecodeMsgBitfield
  have htn : (UInt32.ofNat l).toNat = l := UInt32.toNat_ofNat_of_lt' (by simp only [UInt32.size]; omega)
  have hadd : (4 + UInt32.ofNat l).toNat = 4 + l := by
    rw [UInt32.toNat_add, htn]; show (4 + l) % 2 ^ 32 = _; omega
  have hsub : (UInt32.ofNat l - 1).toNat = p.length := by
    rw [UInt32.toNat_sub, htn]; show (2 ^ 32 - 1 + l) % 2 ^ 32 = _; omega
  rw [hadd, hsub, slice_ok (by omega) (by simp [be32_length]; omega)]
  simp only [Res.ok_bind, List.drop_zero]
  have ht : (be32 l ++ 5 :: (p ++ rest)).take (4 + l) = (be32 l ++ [5]) ++ p := by
    have : be32 l ++ 5 :: (p ++ rest) = ((be32 l ++ [5]) ++ p) ++ rest := by simp
    rw [this]
    apply List.take_left'
    simp [be32_length]; omega
  rw [ht]
  by_cases hp : p = []
  · subst hp
    rw [if_pos rfl]
    rfl
  · have := fromBytes_full (be32 l ++ [5]) p (by simp [be32_length]) hp
    rw [if_neg hp]
    rw [show ((p.length : Int) * 8) = ((p.length * 8 : Nat) : Int) by omega, this]
    simp only [Res.ok_bind]
    unfold rxBitfield
    rw [← hl, Nat.add_comm]
    simp

/-- `Decode` of a complete frame -/
theorem decode_frame (l : Nat) (t : UInt8) (p rest : Bytes) (hl : p.length + 1 = l) (hlt : l < 2 ^ 32 - 4)
    (hlen : 4 + l ≤ (5 + p.length + rest.length) % 2 ^ 32) (ht : ¬ (t.toNat ≤ 3 ∧ l ≠ 1)) :
    Decode (be32 l ++ t :: (p ++ rest)) =
      match t.toNat with
      | 0 => .ok ⟨some .choke, 5⟩
      | 1 => .ok ⟨some .unchoke, 5⟩
      | 2 => .ok ⟨some .interested, 5⟩
      | 3 => .ok ⟨some .notInterested, 5⟩
      | 4 => .ok ⟨if p.length = 4 then some (.have (UInt32.ofNat (prefixLen p))) else none, 9⟩
      | 5 => .ok (if p = [] then ⟨none, 0⟩ else ⟨some (.bitfield (UInt32.ofNat l) (rxBitfield p)), 4 + l⟩)
      | 6 => .ok ⟨if p.length = 12 then some (.request (UInt32.ofNat (prefixLen p))
          (UInt32.ofNat (prefixLen (p.drop 4))) (UInt32.ofNat (prefixLen (p.drop 8)))) else none, 17⟩
      | 7 => .panic
      | _ => .ok ⟨none, 5 + p.length + rest.length⟩ := by
  rw [decode_be32 l (by omega) t (p ++ rest)]
  rw [if_neg (by omega), if_neg ht, List.length_append, if_neg (by omega), if_neg (by omega)]
  have hpl : ((be32 l ++ t :: (p ++ rest)).take (4 + l)).drop 5 = p := by
    have : be32 l ++ t :: (p ++ rest) = ((be32 l ++ [t]) ++ p) ++ rest := by simp
    rw [this, List.take_left' (by simp [be32_length]; omega)]
    exact List.drop_left' rfl
  unfold frameCase
  rw [hpl]
  split
  · rfl
  · rfl
  · rfl
  · rfl
  · rw [decodeHave_eq p (by omega)]
    split <;> rfl
  · rename_i h5
    have h5' : t = 5 := by apply UInt8.toNat.inj; exact h5
    subst h5'
    rw [decodeBitfield_eq p rest l hl hlt]
    split
    · rfl
    · have htn : (UInt32.ofNat l).toNat = l := UInt32.toNat_ofNat_of_lt' (by simp only [UInt32.size]; omega)
      have hadd : (4 + UInt32.ofNat l).toNat = 4 + l := by
        rw [UInt32.toNat_add, htn]; show (4 + l) % 2 ^ 32 = _; omega
      simp only [withReadBitfield, Msg.Length, hadd]
  · rw [decodeRequest_eq p (by omega)]
    split <;> rfl
  · rfl
  · simp [be32_length]; omega

end Verif.P2P
