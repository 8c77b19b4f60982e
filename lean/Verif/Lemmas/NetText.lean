import Verif.Lemmas.NetIP
/-
Lemmas about `net.IP.String`.
-/
set_option autoImplicit false

namespace Verif.NetIP
open Verif.Bencode Verif.Bencode.Spec Verif.Peer Verif.Dial Verif.NetIP.Spec

/- the numbers -/

theorem hexChar_digit : ∀ d : Fin 16, hexChar d.val = UInt8.ofNat (Nat.digitChar d.val).toNat := by decide

theorem hexLoop_snoc (n : Nat) : ∀ j, hexLoop n (j + 1) = hexLoop (n / 16) j ++ if n > 0 then [hexChar (n % 16)] else [] := by
  intro j
  induction j with
  | zero => simp [hexLoop]
  | succ j ih =>
    have e : n >>> ((j + 1) * 4) = (n / 16) >>> (j * 4) := by
      rw [Nat.shiftRight_eq_div_pow, Nat.shiftRight_eq_div_pow, Nat.div_div_eq_div_mul, show (j + 1) * 4 = 4 + j * 4 by omega, Nat.pow_add]
    rw [hexLoop, ih, e, hexLoop, List.append_assoc]

theorem hexLoop_zero : ∀ j, hexLoop 0 j = [] := by
  intro j
  induction j with
  | zero => rfl
  | succ j ih => rw [hexLoop_snoc, show (0 : Nat) / 16 = 0 by decide, ih]; rfl

theorem hexLoop_text : ∀ (j n : Nat), 0 < n → n < 16 ^ j → hexLoop n j = hexText n := by
  intro j
  induction j with
  | zero => intro n h1 h2; simp at h2; omega
  | succ j ih =>
    intro n h1 h2
    rw [hexLoop_snoc, if_pos h1]
    by_cases hn : n < 16
    · rw [Nat.div_eq_of_lt hn, hexLoop_zero, hexText, Nat.toDigits_of_lt_base hn, Nat.mod_eq_of_lt hn, hexChar_digit ⟨n, hn⟩]
      rfl
    · rw [ih (n / 16) (by omega) (by rw [Nat.pow_succ] at h2; omega), hexText, hexText, Nat.toDigits_of_base_le (by decide) (by omega : 16 ≤ n), List.map_append, hexChar_digit ⟨n % 16, Nat.mod_lt _ (by decide)⟩]
      rfl

theorem appendHex_text (n : Nat) (h : n < 65536) : appendHex n = hexText n := by
  unfold appendHex
  split
  · rename_i h0; subst h0; decide
  · exact hexLoop_text 8 n (by omega) (by omega)

/- the bytes and the groups -/

theorem groups_length : ∀ (n : Nat) (bs : Bytes), bs.length = 2 * n → (groups bs).length = n := by
  intro n
  induction n with
  | zero => intro bs h; rw [List.length_eq_zero_iff.mp (by omega : bs.length = 0)]; rfl
  | succ n ih =>
    intro bs h
    match bs, h with
    | a :: b :: r, h =>
      simp only [groups, List.length_cons] at h ⊢
      rw [ih r (by omega)]
    | [], h => simp at h
    | [a], h => simp at h; omega

theorem groups_append : ∀ (n : Nat) (p q : Bytes), p.length = 2 * n → groups (p ++ q) = groups p ++ groups q := by
  intro n
  induction n with
  | zero => intro p q h; rw [List.length_eq_zero_iff.mp (by omega : p.length = 0)]; rfl
  | succ n ih =>
    intro p q h
    match p, h with
    | a :: b :: r, h =>
      simp only [List.length_cons] at h
      rw [List.cons_append, List.cons_append, groups, groups, ih r q (by omega), List.cons_append]
    | [], h => simp at h
    | [a], h => simp at h; omega

theorem groups_zero : ∀ k : Nat, groups (List.replicate (2 * k) 0) = List.replicate k 0 := by
  intro k
  induction k with
  | zero => rfl
  | succ k ih =>
    rw [show 2 * (k + 1) = 2 * k + 1 + 1 by omega, List.replicate_succ, List.replicate_succ, groups, ih, List.replicate_succ]
    rfl

theorem groups_inj : ∀ (n : Nat) (p q : Bytes), p.length = 2 * n → q.length = 2 * n → groups p = groups q → p = q := by
  intro n
  induction n with
  | zero => intro p q h h' _; rw [List.length_eq_zero_iff.mp (by omega : p.length = 0), List.length_eq_zero_iff.mp (by omega : q.length = 0)]
  | succ n ih =>
    intro p q h h' he
    match p, q, h, h' with
    | a :: b :: r, a' :: b' :: r', h, h' =>
      simp only [groups, List.length_cons, List.cons.injEq] at h h' he
      have ha := a.toNat_lt
      have hb := b.toNat_lt
      have ha' := a'.toNat_lt
      have hb' := b'.toNat_lt
      have e1 : a = a' := UInt8.toNat.inj (by omega)
      have e2 : b = b' := UInt8.toNat.inj (by omega)
      rw [e1, e2, ih r r' (by omega) (by omega) he.2]
    | [], _, h, _ => simp at h
    | [a], _, h, _ => simp at h; omega
    | _ :: _ :: _, [], _, h => simp at h
    | _ :: _ :: _, [a], _, h => simp at h; omega

theorem groups_take (k n : Nat) (bs : Bytes) (h : bs.length = 2 * n) (hk : k ≤ n) : groups (bs.take (2 * k)) = (groups bs).take k := by
  have hl : (bs.take (2 * k)).length = 2 * k := by rw [List.length_take]; omega
  have := groups_append k (bs.take (2 * k)) (bs.drop (2 * k)) hl
  rw [List.take_append_drop] at this
  rw [this, List.take_left' (groups_length k _ hl)]

theorem groups_drop (k n : Nat) (bs : Bytes) (h : bs.length = 2 * n) (hk : k ≤ n) : groups (bs.drop (2 * k)) = (groups bs).drop k := by
  have hl : (bs.take (2 * k)).length = 2 * k := by rw [List.length_take]; omega
  have := groups_append k (bs.take (2 * k)) (bs.drop (2 * k)) hl
  rw [List.take_append_drop] at this
  rw [this, List.drop_left' (groups_length k _ hl)]

/- the zeros -/

theorem zeros_le (l : List Nat) : zeros l ≤ l.length := by
  induction l with
  | nil => exact Nat.le_refl _
  | cons g l ih =>
    cases g with
    | zero => simp only [zeros, List.length_cons]; omega
    | succ g => simp [zeros]

theorem zeros_take (l : List Nat) : l.take (zeros l) = List.replicate (zeros l) 0 := by
  induction l with
  | nil => rfl
  | cons g l ih =>
    cases g with
    | zero => simp only [zeros, List.take_succ_cons, List.replicate_succ, ih]
    | succ g => rfl

theorem zeros_ge (k : Nat) (q : List Nat) : k ≤ zeros (List.replicate k 0 ++ q) := by
  induction k with
  | zero => exact Nat.zero_le _
  | succ k ih => rw [List.replicate_succ, List.cons_append, zeros]; omega

theorem zeros_drop (l : List Nat) (m : Nat) (h : m ≤ zeros l) : zeros (l.drop m) = zeros l - m := by
  induction l generalizing m with
  | nil => simp [zeros] at h ⊢
  | cons g l ih =>
    cases m with
    | zero => rfl
    | succ m =>
      cases g with
      | zero =>
        simp only [zeros] at h ⊢
        rw [List.drop_succ_cons, ih m (by omega)]; omega
      | succ g => simp [zeros] at h

/-- what the search knows when it has seen the groups before `i` -/
structure Best (gs : List Nat) (i : Nat) (b : Nat × Nat) : Prop where
  le : b.1 ≤ i
  len : b.2 ≤ zeros (gs.drop b.1)
  max : ∀ c, c < i → zeros (gs.drop c) ≤ b.2 ∧ (c < b.1 → zeros (gs.drop c) < b.2)

theorem longest_best (gs : List Nat) : ∀ (f i : Nat) (b : Nat × Nat), gs.length < f + i → Best gs i b → ∃ i', gs.length ≤ i' ∧ Best gs i' (longest f i (gs.drop i) b) := by
  intro f
  induction f with
  | zero => intro i b hf hb; exact ⟨i, by omega, by rw [longest]; exact hb⟩
  | succ f ih =>
    intro i b hf hb
    by_cases hi : gs.length ≤ i
    · exact ⟨i, hi, by rw [List.drop_eq_nil_of_le hi, longest]; exact hb; simp⟩
    · obtain ⟨g, l, hl⟩ : ∃ g l, gs.drop i = g :: l := by
        cases h : gs.drop i with
        | nil => have := List.drop_eq_nil_iff.mp h; omega
        | cons g l => exact ⟨g, l, rfl⟩
      rw [hl, longest]
      split
      · rename_i hz
        rw [← hl] at hz ⊢
        rw [List.drop_drop, ← Nat.add_assoc]
        refine ih _ _ (by omega) ⟨by simp only; omega, Nat.le_refl _, fun c hc => ?_⟩
        by_cases hci : c < i
        · have := (hb.max c hci).1
          simp only
          omega
        · have e : gs.drop c = (gs.drop i).drop (c - i) := by rw [List.drop_drop]; congr 1; omega
          rw [e, zeros_drop _ _ (by omega)]
          simp only
          omega
      · rename_i hz
        rw [← hl] at hz
        have e : l = gs.drop (i + 1) := by rw [← List.drop_drop, hl]; rfl
        rw [e]
        have := hb.le
        refine ih _ _ (by omega) ⟨by omega, hb.len, fun c hc => ?_⟩
        by_cases hci : c < i
        · exact hb.max c hci
        · have : c = i := by omega
          subst this
          exact ⟨by omega, by omega⟩

theorem longest_spec (gs : List Nat) (h : gs.length = 8) :
    (longest 9 0 gs (0, 0)).1 + (longest 9 0 gs (0, 0)).2 ≤ 8 ∧
    (longest 9 0 gs (0, 0)).2 ≤ zeros (gs.drop (longest 9 0 gs (0, 0)).1) ∧
    ∀ c, zeros (gs.drop c) ≤ (longest 9 0 gs (0, 0)).2 ∧ (c < (longest 9 0 gs (0, 0)).1 → zeros (gs.drop c) < (longest 9 0 gs (0, 0)).2) := by
  obtain ⟨i, hi, hb⟩ := longest_best gs 9 0 (0, 0) (by omega) ⟨Nat.le_refl _, Nat.zero_le _, fun c hc => by omega⟩
  rw [List.drop_zero] at hb
  generalize longest 9 0 gs (0, 0) = b at *
  have h1 := hb.len
  have h2 := zeros_le (gs.drop b.1)
  rw [List.length_drop] at h2
  have h3 := hb.le
  have key : ∀ c, zeros (gs.drop c) ≤ b.2 ∧ (c < b.1 → zeros (gs.drop c) < b.2) := fun c => by
    by_cases hc : c < i
    · exact hb.max c hc
    · rw [List.drop_eq_nil_of_le (by omega)]
      exact ⟨Nat.zero_le _, fun h => by omega⟩
  refine ⟨?_, h1, key⟩
  by_cases h8 : b.1 ≤ 8
  · omega
  · exfalso
    have := (key 8).2 (by omega)
    rw [List.drop_eq_nil_of_le (by omega)] at this
    simp only [zeros] at this
    omega

/- the printing -/

/-- every group with a colon in front of it -/
def colons : List Nat → Bytes
  | [] => []
  | g :: l => 58 :: appendHex g ++ colons l

/-- groups with colons between them -/
def body : List Nat → Bytes
  | [] => []
  | g :: l => appendHex g ++ colons l

theorem print_rest (gs : List Nat) (hg : gs.length = 8) (e : Option (Nat × Nat)) : ∀ (f i : Nat), 0 < i → 8 < f + i → (∀ j, i ≤ j → e.map Prod.fst ≠ some j) →
    printLoop gs e f i = colons (gs.drop i) := by
  intro f
  induction f with
  | zero => intro i _ hf _; rw [printLoop, List.drop_eq_nil_of_le (by omega)]; rfl
  | succ f ih =>
    intro i hi hf he
    rw [printLoop]
    split
    · rw [List.drop_eq_nil_of_le (by omega)]; rfl
    · rename_i h8
      rw [if_neg (he i (Nat.le_refl _)), ih (i + 1) (by omega) (by omega) fun j hj => he j (by omega), List.drop_eq_getElem_cons (by omega : i < gs.length), colons]
      simp [List.getD_eq_getElem?_getD, List.getElem?_eq_getElem (by omega : i < gs.length)]

theorem print_plain (gs : List Nat) (hg : gs.length = 8) : printLoop gs none 9 0 = body gs := by
  match gs, hg with
  | g :: l, hg =>
    rw [printLoop, if_neg (by omega), if_neg (by simp), print_rest (g :: l) hg none 8 1 (by omega) (by omega) (by simp)]
    simp [body, List.getD]

theorem print_cut (gs : List Nat) (hg : gs.length = 8) (a b : Nat) (hab : a < b) (hb : b ≤ 8) : ∀ (f i : Nat), 8 < f + i → 0 < i → i ≤ a →
    printLoop gs (some (a, b)) f i = colons ((gs.drop i).take (a - i)) ++ [58, 58] ++ body (gs.drop b) := by
  intro f
  induction f with
  | zero => intro i hf _ _; omega
  | succ f ih =>
    intro i hf hi hia
    rw [printLoop, if_neg (by omega)]
    simp only [Option.map_some, Option.getD_some, Option.some.injEq]
    split
    · rename_i h
      subst h
      rw [Nat.sub_self, List.take_zero]
      simp only [colons, List.nil_append]
      congr 1
      split
      · rw [List.drop_eq_nil_of_le (by omega)]; rfl
      · rw [List.drop_eq_getElem_cons (by omega : b < gs.length), body, print_rest gs hg _ f (b + 1) (by omega) (by omega) (fun j hj => by simp; omega)]
        simp [List.getD_eq_getElem?_getD, List.getElem?_eq_getElem (by omega : b < gs.length)]
    · rw [ih (i + 1) (by omega) (by omega) (by omega), List.drop_eq_getElem_cons (by omega : i < gs.length),
        show a - i = (a - (i + 1)) + 1 by omega, List.take_succ_cons, colons]
      simp [List.getD_eq_getElem?_getD, List.getElem?_eq_getElem (by omega : i < gs.length)]

theorem print_cut0 (gs : List Nat) (hg : gs.length = 8) (a b : Nat) (hab : a < b) (hb : b ≤ 8) :
    printLoop gs (some (a, b)) 9 0 = body (gs.take a) ++ [58, 58] ++ body (gs.drop b) := by
  by_cases ha : a = 0
  · subst ha
    rw [printLoop, if_neg (by omega)]
    simp only [Option.map_some, Option.getD_some, if_true, List.take_zero]
    rw [show body [] = [] from rfl, List.nil_append]
    congr 1
    split
    · rw [List.drop_eq_nil_of_le (by omega)]; rfl
    · rw [List.drop_eq_getElem_cons (by omega : b < gs.length), body, print_rest gs hg _ 8 (b + 1) (by omega) (by omega) (fun j hj => by simp; omega)]
      simp [List.getD_eq_getElem?_getD, List.getElem?_eq_getElem (by omega : b < gs.length)]
  · rw [printLoop, if_neg (by omega), if_neg (by simpa using ha), if_neg (by omega), print_cut gs hg a b hab hb 8 1 (by omega) (by omega) (by omega)]
    match gs, hg with
    | g :: l, hg =>
      obtain ⟨a, rfl⟩ : ∃ j, a = j + 1 := ⟨a - 1, by omega⟩
      simp [body, List.getD]

theorem body_written : ∀ (n : Nat) (bs : Bytes), bs.length = 2 * n → Written bs (body (groups bs)) := by
  intro n
  induction n with
  | zero => intro bs h; rw [List.length_eq_zero_iff.mp (by omega : bs.length = 0)]; exact .none
  | succ n ih =>
    intro bs h
    match bs, h with
    | a :: b :: r, h =>
      have ha := a.toNat_lt
      have hb := b.toNat_lt
      simp only [List.length_cons] at h
      have hi := ih r (by omega)
      rw [groups, body, appendHex_text _ (by omega)]
      cases r with
      | nil => simp only [groups, colons, List.append_nil]; exact .one a b
      | cons x r =>
        have := Written.more a b (x :: r) _ (by simp) hi
        rw [colon_one] at this
        match r, h with
        | y :: r, h => simpa [groups, body, colons] using this
        | [], h => simp at h; omega
    | [], h => simp at h
    | [a], h => simp at h; omega

theorem written_groups {bs t : Bytes} (h : Written bs t) (hne : bs ≠ []) : Groups t bs := by
  induction h with
  | none => exact absurd rfl hne
  | one a b =>
    have ha := a.toNat_lt
    have hb := b.toNat_lt
    rw [← appendHex_text _ (by omega)]
    exact .one _ a b (appendHex_group a b)
  | more a b bs t hb _ ih =>
    have ha := a.toNat_lt
    have hb' := b.toNat_lt
    rw [← appendHex_text _ (by omega)]
    exact .more _ a b t bs (appendHex_group a b) (ih hb)

theorem groups_tail {t bs : Bytes} (h : Groups t bs) : Tail t bs := by
  induction h with
  | one t a b h => exact .one t a b h
  | more t a b t' bs h _ ih => exact .more t a b t' bs h ih

theorem written_det {bs t t' : Bytes} (h : Written bs t) (h' : Written bs t') : t = t' := by
  induction h generalizing t' with
  | none => cases h'; rfl
  | one a b =>
    cases h' with
    | one => rfl
    | more _ _ _ _ h _ => exact absurd rfl h
  | more a b bs t hb _ ih =>
    cases h' with
    | one => exact absurd rfl hb
    | more _ _ _ t2 _ h => rw [ih h]

theorem v6_shown (ip : IP) (h : ip.length = 16) : Shown ip (v6 ip) := by
  have hg : (groups ip).length = 8 := groups_length 8 ip h
  obtain ⟨h1, h2, h3⟩ := longest_spec _ hg
  unfold v6
  rw [if_neg (by simpa using h)]
  generalize longest 9 0 (groups ip) (0, 0) = b at *
  have zat : ∀ p k, ZerosAt ip p k → k ≤ zeros ((groups ip).drop (p.length / 2)) := by
    rintro p k ⟨hp, q, hq⟩
    have e1 : p.length = 2 * (p.length / 2) := by omega
    have : groups ip = groups p ++ (List.replicate k 0 ++ groups q) := by
      rw [hq, List.append_assoc, groups_append _ p _ e1, groups_append k _ q (by simp), groups_zero]
    rw [this, List.drop_left' (groups_length _ p e1)]
    exact zeros_ge k _
  split
  · rename_i hb
    rw [print_plain _ hg]
    refine .plain _ (fun p hp => ?_) (body_written 8 ip h)
    have := zat p 2 hp
    have := (h3 (p.length / 2)).1
    omega
  · rename_i hb
    rw [print_cut0 _ hg b.1 (b.1 + b.2) (by omega) h1, ← groups_take b.1 8 ip h (by omega), ← groups_drop (b.1 + b.2) 8 ip h h1]
    have l1 : (ip.take (2 * b.1)).length = 2 * b.1 := by rw [List.length_take]; omega
    have l2 : (ip.drop (2 * (b.1 + b.2))).length = 2 * (8 - (b.1 + b.2)) := by rw [List.length_drop]; omega
    have hz : (ip.drop (2 * b.1)).take (2 * b.2) = List.replicate (2 * b.2) 0 := by
      apply groups_inj b.2 _ _ (by rw [List.length_take, List.length_drop]; omega) (by simp)
      rw [groups_zero, groups_take b.2 (8 - b.1) _ (by rw [List.length_drop]; omega) (by omega), groups_drop b.1 8 ip h (by omega)]
      have := congrArg (List.take b.2) (zeros_take ((groups ip).drop b.1))
      rwa [List.take_take, List.take_replicate, Nat.min_eq_left h2] at this
    have := Shown.cut (ip := ip) (ip.take (2 * b.1)) (ip.drop (2 * (b.1 + b.2))) _ _ b.2 ?_ (by omega) (by omega) ?_ (body_written _ _ l1) (body_written _ _ l2)
    · rw [colon_two] at this; exact this
    · rw [← hz, show 2 * (b.1 + b.2) = 2 * b.1 + 2 * b.2 by omega, ← List.drop_drop, List.append_assoc, List.take_append_drop, List.take_append_drop]
    · intro p' k' hz'
      have g1 := zat p' k' hz'
      have g2 := h3 (p'.length / 2)
      have g3 := hz'.1
      refine ⟨by omega, fun he => ?_⟩
      rw [l1]
      by_cases hc : p'.length / 2 < b.1
      · have := g2.2 hc; omega
      · omega

theorem shown_det {ip : IP} {t t' : Bytes} (h : Shown ip t) (h' : Shown ip t') : t = t' := by
  have excl : ∀ (p q : Bytes) (k : Nat), ip = p ++ List.replicate (2 * k) 0 ++ q → p.length % 2 = 0 → 2 ≤ k → (∀ p, ¬ ZerosAt ip p 2) → False := by
    intro p q k h1 h2 h3 h4
    refine h4 p ⟨h2, List.replicate (2 * (k - 2)) 0 ++ q, ?_⟩
    rw [h1, show 2 * k = 2 * 2 + 2 * (k - 2) by omega, ← List.replicate_append_replicate]
    simp
  cases h with
  | plain _ hn hw =>
    cases h' with
    | plain _ _ hw' => exact written_det hw hw'
    | cut p q t t' k h1 h2 h3 _ _ _ => exact (excl p q k h1 h2 h3 hn).elim
  | cut p q t t' k h1 h2 h3 h4 h5 h6 =>
    cases h' with
    | plain _ hn hw => exact (excl p q k h1 h2 h3 hn).elim
    | cut p' q' u u' k' g1 g2 g3 g4 g5 g6 =>
      have a1 := h4 p' k' ⟨g2, q', g1⟩
      have a2 := g4 p k ⟨h2, q, h1⟩
      have hk : k = k' := by omega
      subst hk
      have hl : p.length = p'.length := Nat.le_antisymm (a1.2 rfl) (a2.2 rfl)
      rw [h1, List.append_assoc, List.append_assoc] at g1
      obtain ⟨rfl, e2⟩ := List.append_inj g1 hl
      have := List.append_cancel_left e2
      subst this
      rw [written_det h5 g5, written_det h6 g6]

theorem shown_six {ip : IP} {t : Bytes} (hl : ip.length = 16) (h : Shown ip t) : Six t ip := by
  cases h with
  | plain _ _ hw => exact .full _ _ (groups_tail (written_groups hw (fun h => by rw [h] at hl; simp at hl))) hl
  | cut p q t t' k h1 h2 h3 h4 h5 h6 =>
    rw [h1]
    refine .gap t t' p q (2 * k) ?_ ?_ (by omega) (by rw [h1] at hl; simp at hl; omega)
    · by_cases hp : p = []
      · subst hp; cases h5; exact .inr ⟨rfl, rfl⟩
      · exact .inl (written_groups h5 hp)
    · by_cases hq : q = []
      · subst hq; cases h6; exact .inr ⟨rfl, rfl⟩
      · exact .inl (groups_tail (written_groups h6 hq))

end Verif.NetIP
