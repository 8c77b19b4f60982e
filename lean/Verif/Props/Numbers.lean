import Verif.Spec.Numbers
import Verif.Props.Hostile
/-
Properties C24 and C35 for every number: metadata with a single file, any piece length and any length (also negative ones).
-/
set_option autoImplicit false

namespace Verif.Numbers
open Verif.Files Verif.Torrent Verif.Bencode Verif.Bencode.Spec Verif.Layout Verif.Info

/-- division with a quotient towards zero, signs of both -/
theorem tdiv_neg_pos (a p : Nat) : (-(a : Int)).tdiv p = -((a / p : Nat) : Int) ∧ (-(a : Int)).tmod p = -((a % p : Nat) : Int) := by
  rw [Int.neg_tdiv, Int.neg_tmod]; exact ⟨rfl, rfl⟩
theorem tdiv_pos_neg (a p : Nat) : (a : Int).tdiv (-(p : Int)) = -((a / p : Nat) : Int) ∧ (a : Int).tmod (-(p : Int)) = ((a % p : Nat) : Int) := by
  rw [Int.tdiv_neg, Int.tmod_neg]; exact ⟨rfl, rfl⟩
theorem tdiv_neg_neg (a p : Nat) : (-(a : Int)).tdiv (-(p : Int)) = ((a / p : Nat) : Int) ∧ (-(a : Int)).tmod (-(p : Int)) = -((a % p : Nat) : Int) := by
  rw [Int.tdiv_neg, Int.neg_tdiv, Int.tmod_neg, Int.neg_tmod]; exact ⟨by rw [Int.neg_neg]; rfl, rfl⟩

theorem seekLoop_zero (pl : Int) (k : Nat) (s : Int) : (seekLoop pl k (s, 0)).2 = 0 := by
  induction k generalizing s with
  | zero => rfl
  | succ k ih => rw [seekLoop]; exact ih _

/-- NewTorInfo of a single file, down to the loop over its pieces -/
theorem newTorInfo_single (name : Bytes) (pl : Int) (hpl : pl ≠ 0) (hashes : Bytes) (f : EntryBase) (h20 : hashes.length % 20 = 0)
    (e : Int × Int) (he : endOf pl 0 0 f.length = e) (r : Res PMState)
    (hr : (if hashes.length / 20 = 0 then .ok ⟨List.replicate (hashes.length / 20) [], 0, pl, 0⟩
      else pieceMapFile 0 ⟨f, 0, e.1, 0, e.2⟩ pl ⟨List.replicate (hashes.length / 20) [], 0, pl, 0⟩) = r) :
    ((∃ ti, NewTorInfo name pl hashes [f] = .ok ti) ↔ ∃ st, r = .ok st ∧ st.totalCounted = f.length) ∧
    (NewTorInfo name pl hashes [f] = .panic ↔ r = .panic) := by
  have hm : MakeFileList [f] pl = .ok [⟨f, 0, e.1, 0, e.2⟩] := by
    unfold MakeFileList
    rw [if_neg (by simp [hpl]), fileListLoop, he]
    rfl
  have hl : pieceMapLoop ((hashes.length / 20 : Nat) : Int) pl 0 [⟨f, 0, e.1, 0, e.2⟩] ⟨List.replicate (hashes.length / 20) [], 0, pl, 0⟩ = r := by
    rw [pieceMapLoop]
    by_cases h : hashes.length / 20 = 0
    · rw [if_pos h] at hr
      rw [if_pos (by simp only; omega), hr]
    · rw [if_neg h] at hr
      rw [if_neg (by simp only; omega), hr]
      cases r <;> rfl
  unfold NewTorInfo
  rw [if_neg (by omega), hm]
  simp only [Res.ok_bind]
  unfold MakePieceMap
  rw [hl]
  have hsum : (List.map EntryBase.length [f]).sum = f.length := by simp
  rw [hsum]
  cases r with
  | ok st =>
    simp only [Res.ok_bind]
    by_cases hc : st.totalCounted = f.length
    · rw [if_neg (by simp [hc])]
      exact ⟨⟨fun _ => ⟨st, rfl, hc⟩, fun _ => ⟨_, rfl⟩⟩, by simp [Bind.bind, Res.bind]⟩
    · rw [if_pos hc]
      refine ⟨⟨fun ⟨_, h⟩ => (by cases h), ?_⟩, by simp [Bind.bind, Res.bind]⟩
      rintro ⟨st', h1, h2⟩
      cases h1
      exact absurd h2 hc
  | err e => exact ⟨⟨fun ⟨_, h⟩ => (by cases h), fun ⟨_, h, _⟩ => (by cases h)⟩, by simp [Bind.bind, Res.bind]⟩
  | panic => exact ⟨⟨fun ⟨_, h⟩ => (by cases h), fun ⟨_, h, _⟩ => (by cases h)⟩, by simp [Bind.bind, Res.bind]⟩
  | timeout => exact ⟨⟨fun ⟨_, h⟩ => (by cases h), fun ⟨_, h, _⟩ => (by cases h)⟩, by simp [Bind.bind, Res.bind]⟩

/-- a file that ends before it begins has no pieces -/
theorem pieceMapFile_before (f : EntryBase) (q r pl : Int) (hq : q < 0) (st : PMState) (h0 : st.pieceIdx = 0) :
    pieceMapFile 0 ⟨f, 0, q, 0, r⟩ pl st = .ok st := by
  unfold pieceMapFile
  rw [pieceMapInner]
  have : (Entry.PieceInfo ⟨f, 0, q, 0, r⟩ st.pieceIdx pl) = .err .other := by
    unfold Entry.PieceInfo
    rw [if_pos]
    simp only
    omega
  rw [this]

/-- a file that ends in its first piece: what is counted -/
theorem pieceMapFile_first (f : EntryBase) (r pl : Int) (m : Nat) (hm : 0 < m) :
    ∃ st, pieceMapFile 0 ⟨f, 0, 0, 0, r⟩ pl ⟨List.replicate m [], 0, pl, 0⟩ = .ok st ∧ st.totalCounted = r + 1 := by
  unfold pieceMapFile
  rw [show ((0 : Int) - 0).toNat + 2 = 1 + 1 from rfl, pieceMapInner]
  have : (Entry.PieceInfo ⟨f, 0, 0, 0, r⟩ 0 pl) = .ok ⟨0, r - 0 + 1⟩ := by
    unfold Entry.PieceInfo
    rw [if_neg (by simp), if_neg (by simp)]
    rfl
  simp only [this]
  rw [if_neg (by omega)]
  have hget : (List.replicate m ([] : List PieceLocation))[(0 : Int).toNat]? = some [] := by
    rw [Int.toNat_zero, List.getElem?_replicate, if_pos hm]
  rw [hget]
  simp only
  split
  · rw [pieceMapInner]
    have : (Entry.PieceInfo ⟨f, 0, 0, 0, r⟩ (0 + 1) pl) = .err .other := by
      unfold Entry.PieceInfo
      rw [if_pos]
      simp only
      omega
    rw [this]
    exact ⟨_, rfl, by simp only; omega⟩
  · exact ⟨_, rfl, by simp only; omega⟩

/-- pieces of negative length, one after the other -/
theorem pieceMapInner_back (f : EntryBase) (q p r : Nat) (hr : r < p) (d : Nat) :
    ∀ (k fuel : Nat) (pm : List (List PieceLocation)), q = k + d → d + 2 ≤ fuel →
      (q < pm.length → ∃ st, pieceMapInner fuel 0 ⟨f, 0, q, 0, -(r : Int)⟩ (-(p : Int)) ⟨pm, k, -(p : Int), -((k * p : Nat) : Int)⟩ = .ok st ∧
        st.totalCounted = 1 - ((q * p + r : Nat) : Int)) ∧
      (k ≤ pm.length → pm.length ≤ q →
        pieceMapInner fuel 0 ⟨f, 0, q, 0, -(r : Int)⟩ (-(p : Int)) ⟨pm, k, -(p : Int), -((k * p : Nat) : Int)⟩ = .panic) := by
  induction d with
  | zero =>
    intro k fuel pm hq hfuel
    obtain ⟨g, rfl⟩ : ∃ g, fuel = g + 1 + 1 := ⟨fuel - 2, by omega⟩
    have hpi : (Entry.PieceInfo ⟨f, 0, q, 0, -(r : Int)⟩ k (-(p : Int))) = .ok ⟨(seekLoop (-(p : Int)) k (0, 0)).1, -(r : Int) - 0 + 1⟩ := by
      unfold Entry.PieceInfo
      simp only
      rw [if_neg (by omega), if_neg (by omega)]
      have : ((k : Int) - 0).toNat = k := by omega
      rw [this, seekLoop_zero]
    have hpi' : (Entry.PieceInfo ⟨f, 0, q, 0, -(r : Int)⟩ ((k : Int) + 1) (-(p : Int))) = .err .other := by
      unfold Entry.PieceInfo
      rw [if_pos (by simp only; omega)]
    constructor
    · intro h
      rw [pieceMapInner]
      simp only [hpi]
      rw [if_neg (by omega), Int.toNat_natCast, List.getElem?_eq_getElem (by omega)]
      simp only
      rw [if_pos (by omega), pieceMapInner]
      simp only [hpi']
      refine ⟨_, rfl, ?_⟩
      simp only
      have : q = k := by omega
      subst this
      omega
    · intro h1 h2
      rw [pieceMapInner]
      simp only [hpi]
      rw [if_neg (by omega), Int.toNat_natCast, List.getElem?_eq_none (by omega)]
  | succ d ih =>
    intro k fuel pm hq hfuel
    obtain ⟨g, rfl⟩ : ∃ g, fuel = g + 1 := ⟨fuel - 1, by omega⟩
    have hpi : (Entry.PieceInfo ⟨f, 0, q, 0, -(r : Int)⟩ k (-(p : Int))) = .ok ⟨(seekLoop (-(p : Int)) k (0, 0)).1, -(p : Int) - 0⟩ := by
      unfold Entry.PieceInfo
      simp only
      rw [if_neg (by omega), if_pos (by omega)]
      have : ((k : Int) - 0).toNat = k := by omega
      rw [this, seekLoop_zero]
    have hk : -((k * p : Nat) : Int) + (-(p : Int) - 0) = -(((k + 1) * p : Nat) : Int) := by
      rw [Nat.add_mul, Nat.one_mul]
      omega
    have hk1 : (k : Int) + 1 = ((k + 1 : Nat) : Int) := by omega
    constructor
    · intro h
      rw [pieceMapInner]
      simp only [hpi]
      rw [if_neg (by omega), Int.toNat_natCast, List.getElem?_eq_getElem (by omega)]
      simp only
      rw [if_pos (by omega), hk, hk1]
      exact (ih (k + 1) g _ (by omega) (by omega)).1 (by rw [List.length_set]; exact h)
    · intro h1 h2
      rw [pieceMapInner]
      simp only [hpi]
      rw [if_neg (by omega), Int.toNat_natCast]
      by_cases hlt : k < pm.length
      · rw [List.getElem?_eq_getElem hlt]
        simp only
        rw [if_pos (by omega), hk, hk1]
        exact (ih (k + 1) g _ (by omega) (by omega)).2 (by rw [List.length_set]; omega) (by rw [List.length_set]; exact h2)
      · rw [List.getElem?_eq_none (by omega)]

/-- everything about the metadata of a single file -/
theorem single (name : Bytes) (pl : Int) (hashes : Bytes) (f : EntryBase) (h20 : hashes.length % 20 = 0) :
    ((∃ ti, NewTorInfo name pl hashes [f] = .ok ti) ↔ Taken pl f.length (hashes.length / 20)) ∧
    (NewTorInfo name pl hashes [f] = .panic ↔ Crashes pl f.length (hashes.length / 20)) := by
  rcases Int.lt_trichotomy pl 0 with hneg | h0 | hpos
  · obtain ⟨p, rfl⟩ : ∃ p : Nat, pl = -(p : Int) := ⟨(-pl).toNat, by omega⟩
    have hp : 0 < p := by omega
    rcases Int.lt_or_le 0 f.length with hn | hn
    · -- a positive length
      obtain ⟨a, ha⟩ : ∃ a : Nat, f.length = (a : Int) + 1 := ⟨(f.length - 1).toNat, by omega⟩
      have he : endOf (-(p : Int)) 0 0 f.length = (-((a / p : Nat) : Int), ((a % p : Nat) : Int)) := by
        unfold endOf
        rw [ha, show (a : Int) + 1 - 1 = a by omega, (tdiv_pos_neg a p).1, (tdiv_pos_neg a p).2, if_pos (by omega), Int.zero_add, Int.zero_add,
          (tdiv_pos_neg _ p).1, (tdiv_pos_neg _ p).2, Nat.div_eq_of_lt (Nat.mod_lt a hp), Nat.mod_mod]
        simp
      obtain ⟨h1, h2⟩ := newTorInfo_single name (-(p : Int)) (by omega) hashes f h20 _ he _ rfl
      rw [h1, h2]
      by_cases hm : hashes.length / 20 = 0
      · rw [if_pos hm]
        refine ⟨⟨?_, ?_⟩, ⟨fun h => (by cases h), ?_⟩⟩
        · rintro ⟨st, h, hc⟩
          cases h
          simp only at hc
          omega
        · intro h
          cases h <;> rename_i _ _ _ <;> first | omega | (rw [hm] at *; simp at *; omega)
        · intro h
          cases h <;> omega
      · rw [if_neg hm]
        by_cases hap : a < p
        · have hz : a / p = 0 := Nat.div_eq_of_lt hap
          obtain ⟨st, g1, g2⟩ := pieceMapFile_first f ((a % p : Nat) : Int) (-(p : Int)) (hashes.length / 20) (by omega)
          rw [Nat.mod_eq_of_lt hap] at g1 g2
          simp only [hz, Nat.mod_eq_of_lt hap]
          rw [show -((0 : Nat) : Int) = 0 from rfl, g1]
          refine ⟨⟨fun _ => .onePiece (by omega) hn (by omega) (by omega), fun _ => ⟨st, rfl, by omega⟩⟩, ⟨fun h => (by cases h), ?_⟩⟩
          intro h
          cases h <;> omega
        · have hz : 0 < a / p := Nat.div_pos (by omega) hp
          rw [pieceMapFile_before f _ _ _ (by omega) _ rfl]
          refine ⟨⟨?_, ?_⟩, ⟨fun h => (by cases h), ?_⟩⟩
          · rintro ⟨st, h, hc⟩
            cases h
            simp only at hc
            omega
          · intro h
            cases h <;> omega
          · intro h
            cases h <;> omega
    · -- not a positive length
      obtain ⟨a, ha⟩ : ∃ a : Nat, f.length = 1 - (a : Int) := ⟨(1 - f.length).toNat, by omega⟩
      have hmod := Nat.mod_lt a hp
      have he : endOf (-(p : Int)) 0 0 f.length = (((a / p : Nat) : Int), -((a % p : Nat) : Int)) := by
        unfold endOf
        rw [ha, show 1 - (a : Int) - 1 = -(a : Int) by omega, (tdiv_neg_neg a p).1, (tdiv_neg_neg a p).2, if_pos (by omega), Int.zero_add, Int.zero_add,
          (tdiv_neg_neg _ p).1, (tdiv_neg_neg _ p).2, Nat.div_eq_of_lt hmod, Nat.mod_mod]
        simp
      obtain ⟨h1, h2⟩ := newTorInfo_single name (-(p : Int)) (by omega) hashes f h20 _ he _ rfl
      rw [h1, h2]
      have hdm : a / p * p + a % p = a := by rw [Nat.mul_comm]; exact Nat.div_add_mod a p
      by_cases hm : hashes.length / 20 = 0
      · rw [if_pos hm, hm]
        refine ⟨⟨?_, ?_⟩, ⟨fun h => (by cases h), ?_⟩⟩
        · rintro ⟨st, h, hc⟩
          cases h
          simp only at hc
          exact .nothing (by omega) (by omega) rfl
        · intro h
          cases h with
          | nothing => exact ⟨_, rfl, by simp only; omega⟩
          | backwards _ _ h => simp at h; omega
          | _ => omega
        · intro h
          cases h <;> omega
      · rw [if_neg hm]
        unfold pieceMapFile
        have hb := pieceMapInner_back f (a / p) p (a % p) hmod (a / p) 0 ((((a / p : Nat) : Int) - 0).toNat + 2)
          (List.replicate (hashes.length / 20) []) (by omega) (by omega)
        rw [List.length_replicate] at hb
        have hz : -((0 * p : Nat) : Int) = 0 := by simp
        rw [hz] at hb
        have hiff : a / p < hashes.length / 20 ↔ a < hashes.length / 20 * p := Nat.div_lt_iff_lt_mul hp
        have hcast : ((hashes.length / 20 : Nat) : Int) * - -(p : Int) = ((hashes.length / 20 * p : Nat) : Int) := by
          rw [Int.neg_neg, Int.natCast_mul]
        by_cases hlt : a / p < hashes.length / 20
        · obtain ⟨st, g1, g2⟩ := hb.1 hlt
          simp only [Int.natCast_zero] at g1
          simp only [g1]
          have := hiff.mp hlt
          refine ⟨⟨fun _ => .backwards (by omega) hn (by rw [hcast]; omega), fun _ => ⟨st, rfl, by omega⟩⟩, ⟨fun h => (by cases h), ?_⟩⟩
          intro h
          cases h with
          | backwards _ _ _ h => rw [hcast] at h; omega
          | _ => omega
        · have g1 := hb.2 (by omega) (by omega)
          simp only [Int.natCast_zero] at g1
          simp only [g1]
          have : ¬ a < hashes.length / 20 * p := fun h => hlt (hiff.mpr h)
          refine ⟨⟨fun ⟨_, h, _⟩ => (by cases h), ?_⟩, ⟨fun _ => .backwards (by omega) hn (by omega) (by rw [hcast]; omega), fun _ => trivial⟩⟩
          intro h
          cases h with
          | backwards _ _ h => rw [hcast] at h; omega
          | _ => omega
  · subst h0
    have : NewTorInfo name 0 hashes [f] = .panic := C24_refuted_panics.2 name hashes f [] h20
    rw [this]
    refine ⟨⟨fun ⟨_, h⟩ => (by cases h), ?_⟩, ⟨fun _ => .zero rfl, fun _ => rfl⟩⟩
    intro h
    cases h <;> omega
  · obtain ⟨p, rfl⟩ : ∃ p : Nat, pl = (p : Int) := ⟨pl.toNat, by omega⟩
    have hp : 0 < p := by omega
    rcases Int.lt_or_le f.length 0 with hn | hn
    · obtain ⟨a, ha⟩ : ∃ a : Nat, f.length = 1 - (a : Int) := ⟨(1 - f.length).toNat, by omega⟩
      have he : endOf (p : Int) 0 0 f.length = (-((a / p : Nat) : Int), -((a % p : Nat) : Int)) := by
        unfold endOf
        rw [ha, show 1 - (a : Int) - 1 = -(a : Int) by omega, (tdiv_neg_pos a p).1, (tdiv_neg_pos a p).2, if_neg (by omega)]
        simp
      obtain ⟨h1, h2⟩ := newTorInfo_single name (p : Int) (by omega) hashes f h20 _ he _ rfl
      rw [h1, h2]
      by_cases hm : hashes.length / 20 = 0
      · rw [if_pos hm, hm]
        refine ⟨⟨?_, ?_⟩, ⟨fun h => (by cases h), ?_⟩⟩
        · rintro ⟨st, h, hc⟩
          cases h
          simp only at hc
          omega
        · intro h
          cases h <;> omega
        · intro h
          cases h <;> omega
      · rw [if_neg hm]
        have hnf : ¬ Crashes (p : Int) f.length (hashes.length / 20) := by
          intro h
          cases h with
          | few _ _ h =>
            have : (0 : Int) ≤ ((hashes.length / 20 : Nat) : Int) * p := by
              rw [← Int.natCast_mul]; omega
            omega
          | _ => omega
        by_cases hap : a < p
        · obtain ⟨st, g1, g2⟩ := pieceMapFile_first f (-((a % p : Nat) : Int)) (p : Int) (hashes.length / 20) (by omega)
          rw [Nat.mod_eq_of_lt hap] at g1 g2
          simp only [Nat.div_eq_of_lt hap, Nat.mod_eq_of_lt hap]
          rw [show -((0 : Nat) : Int) = 0 from rfl, g1]
          exact ⟨⟨fun _ => .short (by omega) hn (by omega) (by omega), fun _ => ⟨st, rfl, by omega⟩⟩, ⟨fun h => (by cases h), fun h => absurd h hnf⟩⟩
        · have hz : 0 < a / p := Nat.div_pos (by omega) hp
          rw [pieceMapFile_before f _ _ _ (by omega) _ rfl]
          refine ⟨⟨?_, ?_⟩, ⟨fun h => (by cases h), fun h => absurd h hnf⟩⟩
          · rintro ⟨st, h, hc⟩
            cases h
            simp only at hc
            omega
          · intro h
            cases h <;> omega
    · obtain ⟨n, hn'⟩ : ∃ n : Nat, f.length = n := ⟨f.length.toNat, by omega⟩
      have hf : ∀ g ∈ [f], 0 ≤ g.length := by
        intro g hg
        rw [List.mem_singleton] at hg
        rw [hg]; exact hn
      have htot : total (lens [f]) = n := by
        unfold total lens
        simp [hn']
      have hd : 20 ∣ hashes.length := Nat.dvd_of_mod_eq_zero h20
      have hcast : ((hashes.length / 20 : Nat) : Int) * (p : Int) = ((hashes.length / 20 * p : Nat) : Int) := by rw [Int.natCast_mul]
      constructor
      · rw [C24_accept_iff_partial name p hp hashes [f] hf, needed_le_iff _ _ _ hp, htot]
        constructor
        · rintro ⟨-, h⟩
          exact .fits (by omega) hn (by rw [hcast]; omega)
        · intro h
          refine ⟨hd, ?_⟩
          cases h with
          | fits _ _ h => rw [hcast] at h; omega
          | _ => omega
      · rw [C24_panic_iff_partial name p hp hashes [f] hf]
        have hs0 : startPos (lens [f]) 0 = 0 := rfl
        have hs1 : ∀ k, startPos (lens [f]) (k + 1) = n := by
          intro k
          unfold startPos lens
          simp [hn']
        constructor
        · rintro ⟨-, k, h1, h2⟩
          rw [hs1] at h2
          have hpos : 0 < hashes.length / 20 * p := by omega
          exact .few (by omega) (Nat.pos_of_mul_pos_right hpos) (by rw [hcast]; omega)
        · intro h
          refine ⟨hd, 0, ?_, ?_⟩
          · cases h with
            | few _ h _ => rw [hs0]; exact Nat.mul_pos h hp
            | _ => omega
          · rw [hs1]
            cases h with
            | few _ _ h => rw [hcast] at h; omega
            | _ => omega

/-- **C24** for a single file, whatever the numbers: the metadata is accepted exactly if the hash string consists of whole hashes and the numbers
are among those of `Taken`. -/
theorem C24_single (name : Bytes) (pl : Int) (hashes : Bytes) (f : EntryBase) :
    (∃ ti, NewTorInfo name pl hashes [f] = .ok ti) ↔ 20 ∣ hashes.length ∧ Taken pl f.length (hashes.length / 20) := by
  by_cases h20 : hashes.length % 20 = 0
  · rw [(single name pl hashes f h20).1]
    exact ⟨fun h => ⟨Nat.dvd_of_mod_eq_zero h20, h⟩, fun h => h.2⟩
  · constructor
    · rintro ⟨ti, h⟩
      unfold NewTorInfo at h
      rw [if_pos h20] at h
      cases h
    · rintro ⟨h, -⟩
      exact absurd (Nat.mod_eq_zero_of_dvd h) h20

/-- **C24** for a single file, whatever the numbers: NewTorInfo panics exactly if the hash string consists of whole hashes and the numbers are among
those of `Crashes`. -/
theorem C24_single_panic (name : Bytes) (pl : Int) (hashes : Bytes) (f : EntryBase) :
    NewTorInfo name pl hashes [f] = .panic ↔ 20 ∣ hashes.length ∧ Crashes pl f.length (hashes.length / 20) := by
  by_cases h20 : hashes.length % 20 = 0
  · rw [(single name pl hashes f h20).2]
    exact ⟨fun h => ⟨Nat.dvd_of_mod_eq_zero h20, h⟩, fun h => h.2⟩
  · constructor
    · intro h
      unfold NewTorInfo at h
      rw [if_pos h20] at h
      cases h
    · rintro ⟨h, -⟩
      exact absurd (Nat.mod_eq_zero_of_dvd h) h20

-- one case of each kind; minus ten bytes in pieces of minus four need three hashes
example : Taken (-4) (-10) 3 ∧ Crashes (-4) (-10) 2 ∧ Taken (-4) 3 1 ∧ Taken 4 (-2) 1 ∧ Taken 4 9 3 ∧ Crashes 4 9 2 ∧ Taken (-4) 0 0 ∧ Crashes 0 0 0 ∧
    ¬ Taken 4 (-3) 1 ∧ ¬ Crashes 4 (-3) 1 :=
  ⟨.backwards (by decide) (by decide) (by decide), .backwards (by decide) (by decide) (by decide) (by decide),
    .onePiece (by decide) (by decide) (by decide) (by decide), .short (by decide) (by decide) (by decide) (by decide),
    .fits (by decide) (by decide) (by decide), .few (by decide) (by decide) (by decide), .nothing (by decide) rfl rfl, .zero rfl,
    fun h => (by cases h <;> omega), fun h => (by cases h <;> omega)⟩

example : NewTorInfo (ascii "x") (-4) (List.replicate 40 0) [MakeFileEntry (ascii "x") (-10)] = .panic ∧
    ∃ ti, NewTorInfo (ascii "x") (-4) (List.replicate 60 0) [MakeFileEntry (ascii "x") (-10)] = .ok ti :=
  ⟨by decide +kernel, _, rfl⟩

/-- **C35** for files that describe a single file, whatever the numbers: loading gives a torrent exactly for the numbers of `Taken` and panics exactly for
those of `Crashes` (with whole hashes in both cases); otherwise it is an error. -/
theorem C35_single (H : Bytes → Bytes) (data sp wd : Bytes) (info : Dict) (pl n : Int) (pieces : Bytes) (hh : HeaderOk data sp info pl pieces)
    (hn : intAt info (ascii "length") = some n) :
    ((∃ t, FromTorrentFile H (some data) sp wd = .ok t) ↔ 20 ∣ pieces.length ∧ Taken pl n (pieces.length / 20)) ∧
    (FromTorrentFile H (some data) sp wd = .panic ↔ 20 ∣ pieces.length ∧ Crashes pl n (pieces.length / 20)) ∧
    FromTorrentFile H (some data) sp wd ≠ .timeout := by
  refine ⟨?_, ?_, C35_terminates _ _ _ _⟩
  all_goals
    rcases fromTorrentFile_cases H data sp wd with ⟨h1, -⟩ | ⟨info', pl', pieces', name, hh', hcase⟩
    · exact absurd ⟨_, _, _, hh⟩ h1
    · obtain ⟨rfl, rfl, rfl⟩ := headerOk_unique hh hh'
      have hent : ∃ f : EntryBase, f.length = n ∧ entriesOf info name wd = .ok [f] := by
        unfold entriesOf
        rcases getInt_cases info (ascii "length") with ⟨n', h1, h2⟩ | ⟨h1, -⟩
        · rw [hn] at h1
          cases h1
          rw [h2]
          exact ⟨_, rfl, rfl⟩
        · rw [hn] at h1; cases h1
      obtain ⟨f, rfl, hent⟩ := hent
      first
      | rw [← C24_single name pl pieces f]
      | rw [← C24_single_panic name pl pieces f]
      rcases hcase with ⟨e, -, h⟩ | ⟨-, h⟩ | ⟨es, h, hcase⟩
      · rw [hent] at h; cases h
      · rw [hent] at h; cases h
      · rw [hent] at h
        cases h
        rcases hcase with ⟨ti, t, h1, h2⟩ | ⟨e, h1, h2⟩ | ⟨h1, h2⟩ <;> rw [h1, h2] <;> simp

/-- minus ten bytes in pieces of minus four bytes, with two hashes -/
def backwardsFile : Bytes :=
  ascii "d8:announce1:a4:infod6:lengthi-10e4:name1:n12:piece lengthi-4e6:pieces40:aaaaaaaaaaaaaaaaaaaaaaaaaaaaaaaaaaaaaaaaee"

/-- its info dictionary -/
def backwardsInfo : Dict :=
  [(ascii "length", .int64 (-10)), (ascii "name", .str (ascii "n")), (ascii "piece length", .int64 (-4)),
   (ascii "pieces", .str (ascii "aaaaaaaaaaaaaaaaaaaaaaaaaaaaaaaaaaaaaaaa"))]

example : HeaderOk backwardsFile [] backwardsInfo (-4) (ascii "aaaaaaaaaaaaaaaaaaaaaaaaaaaaaaaaaaaaaaaa") ∧
    intAt backwardsInfo (ascii "length") = some (-10) ∧ 20 ∣ (ascii "aaaaaaaaaaaaaaaaaaaaaaaaaaaaaaaaaaaaaaaa").length ∧ Crashes (-4) (-10) 2 :=
  ⟨⟨[(ascii "announce", .str (ascii "a")), (ascii "info", .dict backwardsInfo)], by decide +kernel, by decide +kernel, by decide +kernel, by decide +kernel,
    by decide +kernel, by decide +kernel⟩, by decide +kernel, by decide +kernel, .backwards (by decide) (by decide) (by decide) (by decide)⟩

end Verif.Numbers
