import Verif.Lemmas.Bitfield
/-
Properties C17–C19: /repo/src/bf/bitfield.go.
-/
set_option autoImplicit false

namespace Verif.Bf
open Verif.Bits

/-- perform one API call -/
def call (b : Bitfield) : Op → Res Bitfield
  | .set i v => b.Set i v
  | .fill => .ok b.Fill
  | .setNbits n => b.SetNbits n

/-- perform a sequence of API calls -/
def calls (b : Bitfield) : List Op → Res Bitfield
  | [] => .ok b
  | op :: ops => do
    let b' ← call b op
    calls b' ops

/-- the operations meant by C17: `Fill`, and `Set` with an index below `m` -/
def SetOrFill (m : Nat) : Op → Prop
  | .set i _ => i < m
  | .fill => True
  | .setNbits _ => False

/-! ### C17 -/

theorem calls_bits (ops : List Op) (b : Bitfield) (f : Nat → Bool) (hw : Wf b)
    (hf : ∀ i, i < 8 * b.data.length → bit b.data i = f i)
    (hops : ∀ op ∈ ops, SetOrFill (8 * b.data.length) op) :
    ∃ b', calls b ops = .ok b' ∧ Wf b' ∧ b'.data.length = b.data.length ∧
      ∀ i, i < 8 * b.data.length → bit b'.data i = ops.foldl Op.apply f i := by
  induction ops generalizing b f with
  | nil => exact ⟨b, rfl, hw, rfl, hf⟩
  | cons op ops ih =>
    have hop := hops op (by simp)
    have hrest : ∀ op ∈ ops, SetOrFill (8 * b.data.length) op := fun o ho => hops o (by simp [ho])
    match op, hop with
    | .set i v, hop =>
      obtain ⟨b1, h1, hs⟩ := set_nat b i v hop
      have hlen : b1.data.length = b.data.length := by
        unfold Bitfield.data; rw [List.length_drop, List.length_drop, hs.len]
      have hw1 : Wf b1 := ⟨by rw [hs.len, hs.nbytes]; exact hw.len, by rw [hs.nbits]; exact hw.lo,
        by rw [hs.nbits, hs.nbytes]; exact hw.lo8, by rw [hs.nbits, hs.nbytes]; exact hw.hi⟩
      obtain ⟨b', hb', hw', hl', hbits⟩ := ih b1 (Op.apply f (.set i v)) hw1 (by
        intro j hj
        rw [hs.bits j]
        show _ = if j = i then v else f j
        split
        · rfl
        · exact hf j (by omega)) (by rw [hlen]; exact hrest)
      refine ⟨b', ?_, hw', by omega, fun j hj => hbits j (by omega)⟩
      rw [calls, call, h1]
      exact hb'
    | .fill, _ =>
      have hlen : b.Fill.data.length = b.data.length := by
        unfold Bitfield.data Bitfield.Fill; simp
      have hw1 : Wf b.Fill := ⟨by unfold Bitfield.Fill; simpa using hw.len, hw.lo, hw.lo8, hw.hi⟩
      obtain ⟨b', hb', hw', hl', hbits⟩ := ih b.Fill (Op.apply f .fill) hw1 (by
        intro j hj
        rw [fill_bit, if_pos (by omega), Op.apply]) (by rw [hlen]; exact hrest)
      refine ⟨b', ?_, hw', by omega, fun j hj => hbits j (by omega)⟩
      rw [calls, call]
      exact hb'

/-- C17: start from a new bitfield of `n` bits and perform any sequence of `Set` and `Fill` calls with
indices inside the allocated bytes; nothing panics and `Get` returns the value of the abstract map. -/
theorem C17_bit_map (n : Nat) (ops : List Op) (h : ∀ op ∈ ops, SetOrFill (8 * ((n + 7) / 8)) op) :
    ∃ b0 b, NewBitfield n = .ok b0 ∧ calls b0 ops = .ok b ∧
      ∀ i : Nat, i < 8 * ((n + 7) / 8) → b.Get i = .ok (ops.foldl Op.apply (fun _ => false) i) := by
  obtain ⟨b0, h0, hw, hn, -, hz⟩ := new_wf n
  have hl : b0.data.length = (n + 7) / 8 := by
    have := hw.data_len; have := hw.lo8; have := hw.hi; omega
  obtain ⟨b, hb, hw', hl', hbits⟩ := calls_bits ops b0 (fun _ => false) hw (fun i _ => hz i) (by rw [hl]; exact h)
  refine ⟨b0, b, h0, hb, fun i hi => ?_⟩
  rw [get_nat, if_pos (by omega), hbits i (by omega)]

example : ∀ op ∈ [Op.set 3 true, .fill, .set 3 false, .set 9 true], SetOrFill (8 * ((10 + 7) / 8)) op := by
  intro op hop
  simp only [List.mem_cons, List.not_mem_nil, or_false] at hop
  rcases hop with rfl | rfl | rfl | rfl <;> simp [SetOrFill]

/-- C17 for a received bitfield: the initial map is the bits of the payload. -/
theorem C17_bit_map_received (bs : Bytes) (n : Int) (b0 : Bitfield) (h0 : FromBytes bs n = .ok b0) (ops : List Op)
    (h : ∀ op ∈ ops, SetOrFill (8 * (bs.length - 5)) op) :
    ∃ b, calls b0 ops = .ok b ∧
      ∀ i : Nat, i < 8 * (bs.length - 5) → b.Get i = .ok (ops.foldl Op.apply (bit (bs.drop 5)) i) := by
  obtain ⟨hw, hd, -, -⟩ := fromBytes_spec bs n b0 h0
  have hl : b0.data.length = bs.length - 5 := by unfold Bitfield.data; rw [hd, List.length_drop]
  obtain ⟨b, hb, hw', hl', hbits⟩ := calls_bits ops b0 (bit (bs.drop 5)) hw
    (fun i _ => by unfold Bitfield.data; rw [hd]) (by rw [hl]; exact h)
  refine ⟨b, hb, fun i hi => ?_⟩
  rw [get_nat, if_pos (by omega), hbits i (by omega)]

example : FromBytes [0, 0, 0, 3, 5, 128, 64] 12 = .ok ⟨[0, 0, 0, 3, 5, 128, 64], 2, 12, 2⟩ := by decide +kernel

/-! ### C18 -/

/-- Bitfields reachable through the API when `Set` is only used with indices below `Nbits` and `SetNbits`
only with a number that still needs the last byte. -/
inductive Reachable : Bitfield → Prop
  | new (n : Nat) (b : Bitfield) : NewBitfield n = .ok b → Reachable b
  | fromBytes (bs : Bytes) (n : Int) (b : Bitfield) : FromBytes bs n = .ok b → Reachable b
  | set (b b' : Bitfield) (i : Int) (v : Bool) : Reachable b → i < b.nbits → b.Set i v = .ok b' → Reachable b'
  | fill (b : Bitfield) : Reachable b → Reachable b.Fill
  | setNbits (b b' : Bitfield) (n : Int) : Reachable b → 0 ≤ n → (b.nbytes - 1) * 8 < n →
      b.SetNbits n = .ok b' → Reachable b'

theorem set_neg (b : Bitfield) (i : Int) (v : Bool) (h : i < 0) : b.Set i v = .panic := by
  have := get_neg b i h
  unfold Bitfield.Get at this
  unfold Bitfield.Set
  simp only at this ⊢
  by_cases h1 : i.tmod 8 < 0
  · rw [if_pos h1]
  · rw [if_neg h1] at this ⊢
    by_cases h2 : i.tdiv 8 < 0
    · rw [if_pos h2]
    · rw [if_neg h2] at this ⊢
      cases hd : b.data[(i.tdiv 8).toNat]? with
      | none => rfl
      | some e => rw [hd] at this; cases this

theorem reachable_exact {b : Bitfield} (h : Reachable b) : Wf b ∧ Exact b := by
  induction h with
  | new n b h =>
    obtain ⟨b', h', hw, hn, hs, hz⟩ := new_wf n
    rw [h'] at h
    cases h
    refine ⟨hw, ?_⟩
    unfold Exact
    rw [hs]
    have : ∀ m, count (bit b.data) m = 0 := by
      intro m
      induction m with
      | zero => rfl
      | succ m ih => rw [count, ih, hz m]; rfl
    rw [this]; rfl
  | fromBytes bs n b h =>
    obtain ⟨hw, hd, hn, hs⟩ := fromBytes_spec bs n b h
    exact ⟨hw, by unfold Exact; rw [hs, hn]; unfold Bitfield.data; rw [hd]⟩
  | set b b' i v _ hi hset ih =>
    obtain ⟨hw, hx⟩ := ih
    by_cases h0 : i < 0
    · rw [set_neg b i v h0] at hset; cases hset
    · have hl := hw.data_len
      have hhi := hw.hi
      have hii : i = (i.toNat : Int) := by omega
      obtain ⟨b1, h1, hs⟩ := set_nat b i.toNat v (by omega)
      rw [hii, h1] at hset
      cases hset
      refine ⟨⟨by rw [hs.len, hs.nbytes]; exact hw.len, by rw [hs.nbits]; exact hw.lo,
        by rw [hs.nbits, hs.nbytes]; exact hw.lo8, by rw [hs.nbits, hs.nbytes]; exact hw.hi⟩, ?_⟩
      unfold Exact at hx ⊢
      rw [hs.nset, hs.nbits, hx, count_congr (g := fun j => if j = i.toNat then v else bit b.data j) (fun j _ => hs.bits j),
        count_update (bit b.data) i.toNat _ v (by omega)]
  | fill b _ ih =>
    obtain ⟨hw, hx⟩ := ih
    refine ⟨⟨by unfold Bitfield.Fill; simpa using hw.len, hw.lo, hw.lo8, hw.hi⟩, ?_⟩
    have hl := hw.data_len
    have hhi := hw.hi
    have hlo := hw.lo
    unfold Exact
    have : count (bit b.Fill.data) b.Fill.nbits.toNat = b.nbits.toNat := by
      have hn : b.Fill.nbits = b.nbits := rfl
      rw [hn, count_eq_iff]
      intro i hi
      rw [fill_bit, if_pos (by omega)]
    rw [this]
    show b.nbits = _
    omega
  | setNbits b b' n _ h0 hlo hset ih =>
    obtain ⟨hw, hx⟩ := ih
    have hhi : n ≤ b.nbytes * 8 := by
      unfold Bitfield.SetNbits at hset
      split at hset
      · cases hset
      · omega
    have hn : n = (n.toNat : Int) := by omega
    obtain ⟨b1, h1, hw1, hx1, -⟩ := setNbits_spec b hw n.toNat (by omega) (by omega)
    rw [hn, h1] at hset
    cases hset
    exact ⟨hw1, hx1⟩

/-- C18 (partial: `Set` only below `Nbits`, `SetNbits` only to a number that needs the last byte):
`Nset` is the number of set bits below `Nbits`, and `Complete` holds exactly when all of them are set. -/
theorem C18_counter_exact_partial (b : Bitfield) (h : Reachable b) :
    b.nset = count (bit b.data) b.nbits.toNat ∧
    (b.Complete = true ↔ ∀ i : Nat, (i : Int) < b.nbits → b.Get i = .ok true) := by
  obtain ⟨hw, hx⟩ := reachable_exact h
  have hl := hw.data_len
  have hhi := hw.hi
  have hlo := hw.lo
  refine ⟨hx, ?_⟩
  unfold Bitfield.Complete
  rw [decide_eq_true_iff, hx]
  have e : ((count (bit b.data) b.nbits.toNat : Nat) : Int) = b.nbits ↔ count (bit b.data) b.nbits.toNat = b.nbits.toNat := by
    omega
  rw [e, count_eq_iff]
  constructor
  · intro h i hi
    rw [get_nat, if_pos (by omega), h i (by omega)]
  · intro h i hi
    have := h i (by omega)
    rw [get_nat, if_pos (by omega)] at this
    simpa using this

example : ∃ b, Reachable b ∧ b.nset = 2 ∧ b.nbits = 9 := by
  refine ⟨⟨[0, 0, 0, 0, 0, 128, 128], 2, 9, 2⟩, ?_, rfl, rfl⟩
  refine .set ⟨[0, 0, 0, 0, 0, 128, 0], 2, 9, 1⟩ _ 8 true ?_ (by decide) (by decide +kernel)
  refine .set ⟨[0, 0, 0, 0, 0, 0, 0], 2, 9, 0⟩ _ 0 true ?_ (by decide) (by decide +kernel)
  exact .new 9 _ (by decide +kernel)

/-- C18 refuted: `Set` on an index in the padding of the last byte changes the counter although no bit
below `Nbits` is set (and makes `Complete` lie). -/
theorem C18_refuted_padding_set :
    ∃ b0 b, NewBitfield 1 = .ok b0 ∧ b0.Set 5 true = .ok b ∧ b.nset = 1 ∧ b.Complete = true ∧ b.Get 0 = .ok false := by
  refine ⟨⟨[0, 0, 0, 0, 0, 0], 1, 1, 0⟩, ⟨[0, 0, 0, 0, 0, 4], 1, 1, 1⟩, ?_⟩
  decide +kernel

/-- C18 refuted: `SetNbits` accepts a number that no longer needs the last byte and then counts that
byte too. -/
theorem C18_refuted_setNbits :
    ∃ b0 b, FromBytes [0, 0, 0, 3, 5, 0, 255] 16 = .ok b0 ∧ b0.SetNbits 8 = .ok b ∧ b.nbits = 8 ∧ b.nset = 8 ∧
      count (bit b.data) 8 = 0 := by
  refine ⟨⟨[0, 0, 0, 3, 5, 0, 255], 2, 16, 8⟩, ⟨[0, 0, 0, 3, 5, 0, 255], 2, 8, 8⟩, ?_⟩
  decide +kernel

/-- **C18**: `SetNbits` panics exactly for numbers that do not suit the number of bytes; otherwise it sets the number, leaves all bits as they
are, and counts anew (exactly, if the last byte is needed). -/
theorem C18_setNbits (b : Bitfield) (h : Reachable b) (n : Int) :
    (b.SetNbits n = .panic ↔ n < (b.nbytes - 1) * 8 ∨ b.nbytes * 8 < n) ∧
    ((b.nbytes - 1) * 8 ≤ n → n ≤ b.nbytes * 8 → ∃ b', b.SetNbits n = .ok b' ∧ b'.nbits = n ∧ b'.nbytes = b.nbytes ∧ b'.data5 = b.data5 ∧
      (0 ≤ n → (b.nbytes - 1) * 8 < n → b'.nset = count (bit b.data) n.toNat)) := by
  obtain ⟨hw, -⟩ := reachable_exact h
  have hl := hw.data_len
  have hok : (b.nbytes - 1) * 8 ≤ n → n ≤ b.nbytes * 8 → ∃ b', b.SetNbits n = .ok b' ∧ b'.nbits = n ∧ b'.nbytes = b.nbytes ∧ b'.data5 = b.data5 ∧
      (0 ≤ n → (b.nbytes - 1) * 8 < n → b'.nset = count (bit b.data) n.toNat) := by
    intro h1 h2
    by_cases hc : 0 ≤ n ∧ (b.nbytes - 1) * 8 < n
    · obtain ⟨b', k1, -, k3, k4, k5, k6⟩ := setNbits_spec b hw n.toNat (by omega) (by omega)
      have hn : n = (n.toNat : Int) := by omega
      refine ⟨b', by rw [hn]; exact k1, by omega, k6, k4, fun _ _ => ?_⟩
      have : b'.data = b.data := by unfold Bitfield.data; rw [k4]
      unfold Exact at k3
      rw [k3, this, k5, Int.toNat_natCast]
    · have hrem : ¬ 0 < n.tmod 8 := by
        by_cases h0 : 0 ≤ n
        · have : n = (b.nbytes - 1) * 8 := by omega
          rw [this, Int.mul_tmod_left]
          omega
        · have h3 : n.tmod 8 = -((-n).tmod 8) := by rw [Int.neg_tmod]; omega
          have h4 := Int.tmod_nonneg (a := -n) 8 (by omega)
          omega
      refine ⟨{ b with nbits := n, nset := ((b.data.take ((b.data.length : Int) - 1 + (if n.tmod 8 = 0 then 1 else 0)).toNat).map fun b => (countByte b 8 : Int)).sum }, ?_, rfl, rfl, rfl, fun a c => absurd ⟨a, c⟩ hc⟩
      unfold Bitfield.SetNbits
      rw [if_neg (by omega)]
      unfold calcNset
      simp only
      rw [if_neg hrem]
      rfl
  refine ⟨⟨?_, ?_⟩, hok⟩
  · intro hp
    apply Classical.byContradiction
    intro hne
    obtain ⟨b', hb', -⟩ := hok (by omega) (by omega)
    rw [hb'] at hp
    cases hp
  · intro hp
    unfold Bitfield.SetNbits
    rw [if_pos (by omega)]

example : Reachable ⟨[0, 0, 0, 3, 5, 0, 255], 2, 16, 8⟩ := .fromBytes [0, 0, 0, 3, 5, 0, 255] 16 _ (by decide +kernel)

/-! ### C19 -/

/-- C19: FromBytes accepts a buffer exactly when it has payload bytes and the number of bits needs all
of them and fits into them; otherwise it is an error. -/
theorem C19_fromBytes_accepts_iff (bs : Bytes) (n : Int) :
    ((∃ b, FromBytes bs n = .ok b) ↔ ∃ nbytes : Nat, bs.length = 5 + nbytes ∧ 0 < nbytes ∧
      8 * ((nbytes : Int) - 1) < n ∧ n ≤ 8 * (nbytes : Int)) ∧
    ((¬ ∃ b, FromBytes bs n = .ok b) → FromBytes bs n = .err .other) := by
  constructor
  · rw [fromBytes_ok_iff]
    constructor
    · rintro ⟨h1, h2, h3⟩; exact ⟨bs.length - 5, by omega, by omega, by omega, by omega⟩
    · rintro ⟨m, h1, h2, h3, h4⟩; omega
  · intro h
    rw [fromBytes_ok_iff] at h
    unfold FromBytes
    simp only
    by_cases h1 : (bs.length : Int) ≤ 5
    · rw [if_pos h1]
    · rw [if_neg h1, if_pos (by omega)]

/-- C19: bit `i` of a received bitfield is bit `7 - i mod 8` of payload byte `i / 8`, and the counter counts
those below the given number of bits. -/
theorem C19_msb_first (bs : Bytes) (n : Int) (b : Bitfield) (h : FromBytes bs n = .ok b) (i : Nat) (byte : UInt8)
    (hb : bs[5 + i / 8]? = some byte) :
    b.Get i = .ok (decide (byte.toNat / 2 ^ (7 - i % 8) % 2 = 1)) := by
  obtain ⟨hw, hd, -, -⟩ := fromBytes_spec bs n b h
  have hlt := (List.getElem?_eq_some_iff.mp hb).1
  have hl : b.data.length = bs.length - 5 := by unfold Bitfield.data; rw [hd, List.length_drop]
  rw [get_nat, if_pos (by omega)]
  unfold bit Bitfield.data
  rw [hd, List.getElem?_drop, hb]
  simp only [Nat.testBit_eq_decide_div_mod_eq]

example : ∃ b, FromBytes [0, 0, 0, 3, 5, 128, 64] 12 = .ok b ∧ ([0, 0, 0, 3, 5, 128, 64] : Bytes)[5 + 9 / 8]? = some 64 :=
  ⟨⟨[0, 0, 0, 3, 5, 128, 64], 2, 12, 2⟩, by decide +kernel, rfl⟩

/-- C19 (partial: "out of range" is measured in allocated bits): Get and Set panic exactly outside the
allocated bytes. -/
theorem C19_out_of_range_panics_partial (b : Bitfield) (i : Int) (v : Bool) :
    (b.Get i = .panic ↔ i < 0 ∨ 8 * (b.data.length : Int) ≤ i) ∧
    (b.Set i v = .panic ↔ i < 0 ∨ 8 * (b.data.length : Int) ≤ i) := by
  by_cases h0 : i < 0
  · simp [get_neg b i h0, set_neg b i v h0, h0]
  · have hii : i = (i.toNat : Int) := by omega
    constructor
    · rw [hii, get_nat]
      split
      · simp; omega
      · simp; omega
    · by_cases hlt : i.toNat < 8 * b.data.length
      · obtain ⟨b', h1, -⟩ := set_nat b i.toNat v hlt
        rw [hii, h1]; simp; omega
      · have hg := get_nat b i.toNat
        rw [if_neg hlt] at hg
        have hp : b.Set (i.toNat : Int) v = .panic := by
          unfold Bitfield.Get at hg
          unfold Bitfield.Set
          simp only [tdiv8, tmod8] at hg ⊢
          rw [if_neg (by omega), if_neg (by omega)] at hg ⊢
          cases hd : b.data[((i.toNat / 8 : Nat) : Int).toNat]? with
          | none => rfl
          | some e => rw [hd] at hg; cases hg
        rw [hii, hp]; simp; omega

example : (⟨[0, 0, 0, 2, 5, 7], 1, 8, 3⟩ : Bitfield).Get 8 = .panic := by decide +kernel

/-- C19 refuted for padding bits: index 3 of a 3-bit field is answered (with the padding bit), not
rejected. -/
theorem C19_refuted_padding_readable :
    ∃ b, FromBytes [0, 0, 0, 2, 5, 16] 3 = .ok b ∧ b.nbits = 3 ∧ b.Get 3 = .ok true :=
  ⟨⟨[0, 0, 0, 2, 5, 16], 1, 3, 0⟩, by decide +kernel⟩

end Verif.Bf
