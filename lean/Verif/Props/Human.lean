import Verif.Model.Human
import Verif.Spec.Bencode
import Verif.Lemmas.BencodeBasic
/-
Property C78: sizes for people.
-/
set_option autoImplicit false

namespace Verif.Human
open Verif.Bencode Verif.Bencode.Spec

/-- a rounded quotient is at most half a unit off -/
theorem divRound_close (n d : Nat) (hd : 0 < d) : 2 * (divRound n d * d) ≤ 2 * n + d ∧ 2 * n ≤ 2 * (divRound n d * d) + d := by
  have h := Nat.div_add_mod n d
  have hlt := Nat.mod_lt n hd
  rw [Nat.mul_comm] at h
  unfold divRound
  split
  · rename_i hc
    rw [Nat.add_mul]
    omega
  · rename_i hc
    omega

theorem divRound_exact (n d : Nat) (hd : 0 < d) : divRound (n * d) d = n := by
  unfold divRound
  rw [Nat.mul_mod_left, Nat.mul_div_cancel _ hd]
  rw [if_neg]
  omega

theorem divRound_mono (a n d : Nat) (hd : 0 < d) (h : a * d ≤ n) : a ≤ divRound n d := by
  have : a ≤ n / d := (Nat.le_div_iff_mul_le hd).mpr h
  unfold divRound
  split <;> omega

theorem divRound_upper (b n d : Nat) (hd : 0 < d) (h : n ≤ b * d) : divRound n d ≤ b := by
  have h1 := Nat.div_add_mod n d
  rw [Nat.mul_comm] at h1
  have h2 := Nat.mod_lt n hd
  have : n / d ≤ b := Nat.div_le_of_le_mul (by rw [Nat.mul_comm]; exact h)
  unfold divRound
  split
  · rename_i hc
    rcases Nat.lt_or_ge (n / d) b with hl | hl
    · omega
    · have he : n / d = b := by omega
      rw [he] at h1
      omega
  · exact this

/-- powers of two that are representable are not crossed by rounding -/
theorem roundNat_pow (n k : Nat) : 2 ^ k ≤ n → 2 ^ k ≤ roundNat n := by
  intro h
  unfold roundNat
  split
  · exact h
  · rename_i hb
    have hn : n ≠ 0 := by omega
    have hk : k ≤ n.log2 := (Nat.le_log2 hn).mpr h
    by_cases hks : n.log2 - 52 ≤ k
    · have : 2 ^ k = 2 ^ (k - (n.log2 - 52)) * 2 ^ (n.log2 - 52) := by rw [← Nat.pow_add]; congr 1; omega
      rw [this]
      refine Nat.mul_le_mul_right _ (divRound_mono _ _ _ (Nat.two_pow_pos _) ?_)
      rw [← this]; exact h
    · have h1 : 2 ^ k ≤ 2 ^ (n.log2 - 52) := Nat.pow_le_pow_right (by omega) (by omega)
      have h2 : 1 ≤ divRound n (2 ^ (n.log2 - 52)) := divRound_mono 1 _ _ (Nat.two_pow_pos _) (by
        rw [Nat.one_mul]
        exact Nat.le_trans (Nat.pow_le_pow_right (by omega) (by omega)) (Nat.log2_self_le hn))
      calc 2 ^ k ≤ 1 * 2 ^ (n.log2 - 52) := by omega
        _ ≤ _ := Nat.mul_le_mul_right _ h2

theorem roundNat_upper (n k : Nat) (hk : 53 ≤ k) : n ≤ 2 ^ k → roundNat n ≤ 2 ^ k := by
  intro h
  unfold roundNat
  split
  · exact h
  · rename_i hb
    have hn : n ≠ 0 := by omega
    have hl : n.log2 ≤ k := by
      have := Nat.log2_self_le hn
      exact (Nat.pow_le_pow_iff_right (by omega : 1 < 2)).mp (Nat.le_trans this h)
    have : 2 ^ k = 2 ^ (k - (n.log2 - 52)) * 2 ^ (n.log2 - 52) := by rw [← Nat.pow_add]; congr 1; omega
    rw [this]
    refine Nat.mul_le_mul_right _ (divRound_upper _ _ _ (Nat.two_pow_pos _) ?_)
    rw [← this]; exact h

theorem roundNat_close (n : Nat) : 2 ^ 53 * roundNat n ≤ 2 ^ 53 * n + n ∧ 2 ^ 53 * n ≤ 2 ^ 53 * roundNat n + n := by
  unfold roundNat
  split
  · omega
  · rename_i hb
    have hn : n ≠ 0 := by omega
    have h53 : 53 ≤ n.log2 := (Nat.le_log2 hn).mpr (by omega)
    obtain ⟨h1, h2⟩ := divRound_close n (2 ^ (n.log2 - 52)) (Nat.two_pow_pos _)
    have h3 := Nat.log2_self_le hn
    have h4 : 2 ^ n.log2 = 2 ^ 52 * 2 ^ (n.log2 - 52) := by rw [← Nat.pow_add]; congr 1; omega
    rw [h4] at h3
    generalize divRound n (2 ^ (n.log2 - 52)) * 2 ^ (n.log2 - 52) = x at *
    generalize 2 ^ (n.log2 - 52) = y at *
    omega

/-- the names of the units, each 1024 times the one before -/
def units : List Bytes := [ascii "B", ascii "KiB", ascii "MiB", ascii "GiB", ascii "TiB", ascii "PiB", ascii "EiB"]

theorem float64_nonneg (n : Nat) : float64 n = roundNat n := by
  unfold float64
  rw [if_neg (by omega)]
  simp

theorem unitLoop_eq (r : Nat) (hr : r ≤ 2 ^ 63) : ∀ (fuel exp : Nat), 1024 ^ (exp + 1) ≤ r → exp ≤ 5 → 6 ≤ fuel + exp →
    ∃ e, e ≤ 5 ∧ unitLoop r fuel ((1024 ^ (exp + 1) : Nat) : Int) exp = .ok (((1024 ^ (e + 1) : Nat) : Int), e) ∧ 1024 ^ (e + 1) ≤ r ∧ r < 1024 ^ (e + 2) := by
  intro fuel
  induction fuel with
  | zero => intro exp _ h1 h2; omega
  | succ fuel ih =>
    intro exp h1 h2 h3
    rw [unitLoop]
    by_cases hc : 1024 ^ (exp + 2) ≤ r
    · have hc' : (1024 : Int) ^ (exp + 2) ≤ (r : Int) := by
        have : ((1024 ^ (exp + 2) : Nat) : Int) ≤ (r : Int) := Int.ofNat_le.mpr hc
        simpa using this
      rw [if_pos hc']
      have hexp : exp ≤ 4 := by
        apply Classical.byContradiction
        intro hne
        have he : exp = 5 := by omega
        subst he
        have : (1024 : Nat) ^ 7 ≤ 2 ^ 63 := Nat.le_trans hc hr
        exact absurd this (by decide)
      have hw : wrap64 (((1024 ^ (exp + 1) : Nat) : Int) * 1024) = ((1024 ^ (exp + 2) : Nat) : Int) := by
        have : exp = 0 ∨ exp = 1 ∨ exp = 2 ∨ exp = 3 ∨ exp = 4 := by omega
        rcases this with e | e | e | e | e <;> rw [e] <;> decide +kernel
      rw [hw]
      exact ih (exp + 1) hc (by omega) (by omega)
    · have hc' : ¬ (1024 : Int) ^ (exp + 2) ≤ (r : Int) := by
        intro h
        apply hc
        have : ((1024 ^ (exp + 2) : Nat) : Int) ≤ (r : Int) := by simpa using h
        exact Int.ofNat_le.mp this
      rw [if_neg hc']
      exact ⟨exp, h2, rfl, h1, by omega⟩

/-- **C78**: for every size the result is a number `r / 1024^k` with the name of the unit `1024^k`, where `r` differs from the size by
at most one part in 2^53.  For sizes from 1024 on the number is at least 1 and less than 1024. -/
theorem C78_number (n : Nat) (hn : n < 2 ^ 63) : ∃ (r k : Nat) (u : Bytes), Bytes4Humans n = .ok (r, ((1024 ^ k : Nat) : Int), u) ∧ units[k]? = some u ∧
    2 ^ 53 * r ≤ 2 ^ 53 * n + n ∧ 2 ^ 53 * n ≤ 2 ^ 53 * r + n ∧ (n < 1024 → k = 0 ∧ r = n) ∧ (1024 ≤ n → 1024 ^ k ≤ r ∧ r < 1024 ^ (k + 1) ∧ 1 ≤ k) := by
  obtain ⟨c1, c2⟩ := roundNat_close n
  unfold Bytes4Humans
  rw [float64_nonneg]
  by_cases hlt : n < 1024
  · rw [if_pos (by omega)]
    refine ⟨roundNat n, 0, _, rfl, rfl, c1, c2, fun _ => ⟨rfl, ?_⟩, fun h => absurd hlt (by omega)⟩
    unfold roundNat
    rw [if_pos (by omega)]
  · rw [if_neg (by omega)]
    have hr := roundNat_upper n 63 (by omega) (by omega)
    have hl := roundNat_pow n 10 (by omega)
    obtain ⟨e, h1, h2, h3, h4⟩ := unitLoop_eq (roundNat n) hr 8 0 (by omega) (by omega) (by omega)
    rw [show (((1024 ^ (0 + 1) : Nat) : Int)) = 1024 by decide] at h2
    rw [h2]
    simp only
    have hu : ∃ c, (ascii "KMGTPE")[e]? = some c ∧ units[e + 1]? = some ([c] ++ ascii "iB") := by
      have : e = 0 ∨ e = 1 ∨ e = 2 ∨ e = 3 ∨ e = 4 ∨ e = 5 := by omega
      rcases this with h | h | h | h | h | h <;> rw [h]
      · exact ⟨75, by decide, by decide⟩
      · exact ⟨77, by decide, by decide⟩
      · exact ⟨71, by decide, by decide⟩
      · exact ⟨84, by decide, by decide⟩
      · exact ⟨80, by decide, by decide⟩
      · exact ⟨69, by decide, by decide⟩
    obtain ⟨c, u1, u2⟩ := hu
    rw [u1]
    exact ⟨roundNat n, e + 1, _, rfl, u2, c1, c2, fun h => absurd h hlt, fun _ => ⟨h3, h4, by omega⟩⟩

/-- **C78** (partial: up to 2^53 bytes).  The number is exact, and the unit is the largest that is not larger than the size. -/
theorem C78_exact_partial (n : Nat) (hn : n ≤ 2 ^ 53) : ∃ (k : Nat) (u : Bytes), Bytes4Humans n = .ok (n, ((1024 ^ k : Nat) : Int), u) ∧ units[k]? = some u ∧
    (k = 0 ∨ 1024 ^ k ≤ n) ∧ n < 1024 ^ (k + 1) := by
  obtain ⟨r, k, u, h1, h2, h3, h4, h5, h6⟩ := C78_number n (by omega)
  have hr : r = n := by
    have := (C78_number n (by omega))
    by_cases hlt : n < 2 ^ 53
    · omega
    · have he : n = 2 ^ 53 := by omega
      have hb : float64 n = n := by rw [he]; decide +kernel
      have : (float64 n : Int) = r := by
        unfold Bytes4Humans at h1
        rw [if_neg (by omega)] at h1
        split at h1
        · split at h1
          · injection h1 with h1; injection h1
          · cases h1
        · cases h1
        · cases h1
        · cases h1
      omega
  subst hr
  refine ⟨k, u, h1, h2, ?_, ?_⟩
  · rcases Nat.lt_or_ge r 1024 with h | h
    · exact .inl (h5 h).1
    · exact .inr (h6 h).1
  · rcases Nat.lt_or_ge r 1024 with h | h
    · rw [(h5 h).1]; exact h
    · exact (h6 h).2.1

example : Bytes4Humans 1536 = .ok (1536, 1024, ascii "KiB") ∧ Bytes4Humans 1023 = .ok (1023, 1, ascii "B") ∧
    Bytes4Humans (2 ^ 60) = .ok (2 ^ 60, 2 ^ 60, ascii "EiB") := by decide +kernel

/-- C78 refuted above 2^53: one byte less than an exbibyte is shown as a whole exbibyte. -/
theorem C78_refuted_rounding : Bytes4Humans (2 ^ 60 - 1) = .ok (2 ^ 60, 2 ^ 60, ascii "EiB") := by decide +kernel

/-- C78 refuted: negative sizes, which torrents may have (C24), are always shown in bytes. -/
theorem C78_refuted_negative (n : Int) (h : n < 0) : ∃ r, Bytes4Humans n = .ok (r, 1, ascii "B") := by
  unfold Bytes4Humans
  rw [if_pos (by omega)]
  exact ⟨_, rfl⟩

/-- a quotient in the middle between two numbers is rounded to the even one -/
theorem divRound_tie (n d q : Nat) (hd : 0 < d) (h : 2 * n = 2 * (q * d) + d) : divRound n d = if q % 2 = 0 then q else q + 1 := by
  have h1 : n / d = q := by
    rw [Nat.div_eq_iff hd]
    constructor <;> omega
  have h2 : 2 * (n % d) = d := by
    have := Nat.div_add_mod n d
    rw [h1, Nat.mul_comm] at this
    omega
  unfold divRound
  rw [h1]
  by_cases hq : q % 2 = 0
  · rw [if_neg (by omega), if_pos hq]
  · rw [if_pos (by omega), if_neg hq]

/-- **C78**, ties: a size in the middle between two hundredths is shown as the even one, and a size between two numbers of 53 bits as the one whose last bit is 0. -/
theorem C78_ties (q d : Nat) (hd : 0 < d) (r : Nat) (h : 2 * (100 * r) = 2 * (q * d) + d) (k : Nat) (hk : 0 < k) (m : Nat) (hm : 2 ^ 52 ≤ m) (hm' : m < 2 ^ 53) :
    fixed2 r d = (if q % 2 = 0 then decNat (q / 100) ++ ascii "." ++ decNat (q / 10 % 10) ++ decNat (q % 10)
      else decNat ((q + 1) / 100) ++ ascii "." ++ decNat ((q + 1) / 10 % 10) ++ decNat ((q + 1) % 10)) ∧
    roundNat (m * 2 ^ k + 2 ^ (k - 1)) = (if m % 2 = 0 then m else m + 1) * 2 ^ k := by
  constructor
  · unfold fixed2
    rw [if_neg (by omega)]
    simp only [Int.natAbs_natCast, List.nil_append]
    rw [divRound_tie _ d q hd h]
    split <;> simp [decNat_eq]
  · have hp : 2 ^ k = 2 * 2 ^ (k - 1) := by rw [← Nat.pow_succ']; congr 1; omega
    have hpos : 0 < 2 ^ (k - 1) := Nat.two_pow_pos _
    have hlo : 2 ^ (k + 52) ≤ m * 2 ^ k := by rw [Nat.pow_add, Nat.mul_comm]; exact Nat.mul_le_mul_right _ hm
    have hhi : m * 2 ^ k + 2 ^ (k - 1) < 2 ^ (k + 53) := by
      have : (m + 1) * 2 ^ k ≤ 2 ^ 53 * 2 ^ k := Nat.mul_le_mul_right _ hm'
      rw [Nat.pow_add, Nat.mul_comm (2 ^ k)]
      rw [Nat.add_mul] at this
      omega
    have hlog : (m * 2 ^ k + 2 ^ (k - 1)).log2 = k + 52 := by
      rw [Nat.log2_eq_iff (by omega)]
      exact ⟨by omega, by simpa using hhi⟩
    have h53 : 2 ^ 53 ≤ 2 ^ (k + 52) := Nat.pow_le_pow_right (by omega) (by omega)
    unfold roundNat
    rw [if_neg (by omega), hlog, show k + 52 - 52 = k by omega, divRound_tie _ _ m (Nat.two_pow_pos _) (by omega)]

/-- 2^53+1 and 2^53+3; 5 and 15 in units of 1000 -/
example : roundNat (2 ^ 53 + 1) = 2 ^ 53 ∧ roundNat (2 ^ 53 + 3) = 2 ^ 53 + 4 ∧ fixed2 5 1000 = ascii "0.00" ∧ fixed2 15 1000 = ascii "0.02" := by decide +kernel

/-- **C78**, the lines of the `info` command: the first shows a number of hundredths that is at most half a hundredth of the unit off the number
of `C78_number`, the second the exact length. -/
theorem C78_lines (n : Nat) (hn : n < 2 ^ 63) : ∃ (r k h : Nat) (u : Bytes), Bytes4Humans n = .ok (r, ((1024 ^ k : Nat) : Int), u) ∧
    lengthLines n = .ok (ascii "   Length: [" ++ (decNat (h / 100) ++ ascii "." ++ decNat (h / 10 % 10) ++ decNat (h % 10)) ++ ascii " " ++ u ++
      ascii "]\n   Length: [" ++ decNat n ++ ascii " b]") ∧
    2 * (h * 1024 ^ k) ≤ 2 * (100 * r) + 1024 ^ k ∧ 2 * (100 * r) ≤ 2 * (h * 1024 ^ k) + 1024 ^ k := by
  obtain ⟨r, k, u, h1, -⟩ := C78_number n hn
  obtain ⟨d1, d2⟩ := divRound_close (100 * r) (1024 ^ k) (Nat.pow_pos (by omega))
  refine ⟨r, k, divRound (100 * r) (1024 ^ k), u, h1, ?_, d1, d2⟩
  unfold lengthLines
  rw [h1]
  have hd : ∀ m, natDec m = decNat m := by
    intro m
    exact (decNat_eq m).symm
  simp only [fixed2, intDec, Int.toNat_natCast, Int.natAbs_natCast, hd]
  rw [if_neg (by omega), if_neg (by omega)]
  simp

example : lengthLines 1536000 = .ok (ascii "   Length: [1.46 MiB]\n   Length: [1536000 b]") := by decide +kernel

/-- C78 refuted: one byte less than a mebibyte is shown as 1024.00 KiB. -/
theorem C78_refuted_1024 : lengthLines 1048575 = .ok (ascii "   Length: [1024.00 KiB]\n   Length: [1048575 b]") := by decide +kernel

end Verif.Human
