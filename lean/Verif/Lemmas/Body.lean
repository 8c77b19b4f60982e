import Verif.Spec.Body
/-
Lemmas for C126: what the readers of bodies accept.
-/
set_option autoImplicit false

namespace Verif.Body
open Verif.BodySpec Verif.UrlParse

theorem hexDigit_all : ∀ n, n < 256 → ∀ d, d < 16 → (hexDigit (UInt8.ofNat n) = some d ↔ ((ascii "0123456789abcdef")[d]? = some (UInt8.ofNat n) ∨ (ascii "0123456789ABCDEF")[d]? = some (UInt8.ofNat n))) := by
  decide +kernel

theorem hexDigit_lt : ∀ n, n < 256 → (hexDigit (UInt8.ofNat n) = none ∨ ∃ d, d < 16 ∧ hexDigit (UInt8.ofNat n) = some d) := by
  decide +kernel

theorem hexDigit_iff (c : UInt8) (d : Nat) : hexDigit c = some d ↔ IsHex c d := by
  have hc : c = UInt8.ofNat c.toNat := UInt8.ofNat_toNat.symm
  have hl : c.toNat < 256 := c.toNat_lt
  by_cases hd : d < 16
  · have := hexDigit_all c.toNat hl d hd
    rw [← hc] at this
    exact this
  · constructor
    · intro h
      rcases hexDigit_lt c.toNat hl with h' | ⟨d', h1, h2⟩
      · rw [← hc, h] at h'; cases h'
      · rw [← hc, h] at h2; cases h2; exact absurd h1 hd
    · intro h
      exfalso
      rcases h with h | h
      · have := (List.getElem?_eq_some_iff.mp h).1
        exact hd (Nat.lt_of_lt_of_eq this (by decide))
      · have := (List.getElem?_eq_some_iff.mp h).1
        exact hd (Nat.lt_of_lt_of_eq this (by decide))

theorem parseHex_snoc (ds : Bytes) (c : UInt8) : ∀ i n, parseHex i n (ds ++ [c]) =
    match parseHex i n ds with
    | none => none
    | some m => match hexDigit c with
      | none => none
      | some d => if i + ds.length = 16 then none else some (16 * m + d) := by
  induction ds with
  | nil =>
    intro i n
    simp only [List.nil_append, parseHex, List.length_nil, Nat.add_zero]
    cases hexDigit c <;> rfl
  | cons x ds ih =>
    intro i n
    simp only [List.cons_append, parseHex]
    cases hexDigit x with
    | none => rfl
    | some d =>
      simp only []
      by_cases hi : i = 16
      · simp only [if_pos hi]
      · simp only [if_neg hi]
        rw [ih]
        have e : i + 1 + ds.length = i + (x :: ds).length := by simp only [List.length_cons]; omega
        rw [e]

theorem parseHex_hex {ds : Bytes} {n : Nat} (h : Hex ds n) : ds.length ≤ 16 → parseHex 0 0 ds = some n := by
  induction h with
  | nil => intro _; rfl
  | snoc ds n c d _ hc ih =>
    intro hl
    rw [List.length_append, List.length_singleton] at hl
    rw [parseHex_snoc, ih (by omega)]
    simp only [(hexDigit_iff c d).mpr hc]
    rw [if_neg (by omega)]

theorem hex_parseHex (ds : Bytes) : ∀ i n m pre, i ≤ 16 → Hex pre n → parseHex i n ds = some m → Hex (pre ++ ds) m ∧ i + ds.length ≤ 16 := by
  induction ds with
  | nil =>
    intro i n m pre hi hp h
    simp only [parseHex, Option.some.injEq] at h
    subst h
    exact ⟨by rw [List.append_nil]; exact hp, hi⟩
  | cons c ds ih =>
    intro i n m pre hi hp h
    rw [parseHex] at h
    cases e : hexDigit c with
    | none => rw [e] at h; cases h
    | some d =>
      rw [e] at h
      by_cases h16 : i = 16
      · simp only [if_pos h16] at h; cases h
      · simp only [if_neg h16] at h
        obtain ⟨h1, h2⟩ := ih (i + 1) _ m (pre ++ [c]) (by omega) (.snoc pre n c d hp ((hexDigit_iff c d).mp e)) h
        rw [List.append_assoc] at h1
        exact ⟨h1, by rw [List.length_cons]; omega⟩

theorem hex_chars {ds : Bytes} {n : Nat} (h : Hex ds n) : ∀ c ∈ ds, hexDigit c ≠ none := by
  induction h with
  | nil => intro c hc; cases hc
  | snoc ds n c d _ hc ih =>
    intro x hx
    rcases List.mem_append.mp hx with hx | hx
    · exact ih x hx
    · rw [List.mem_singleton.mp hx, (hexDigit_iff c d).mpr hc]
      intro e; cases e

theorem hex_not_space {ds : Bytes} {n : Nat} (h : Hex ds n) : ∀ c ∈ ds, isSpace c = false ∧ c ≠ 59 ∧ c ≠ 10 := by
  intro c hc
  have hx := hex_chars h c hc
  refine ⟨?_, ?_, ?_⟩
  · cases e : isSpace c with
    | false => rfl
    | true =>
      exfalso
      simp only [isSpace, Bool.or_eq_true, decide_eq_true_eq] at e
      rcases e with ((rfl | rfl) | rfl) | rfl <;> exact hx (by decide)
  · rintro rfl; exact hx (by decide)
  · rintro rfl; exact hx (by decide)

theorem trimRight_space (l ws : Bytes) (h : ∀ c ∈ ws, isSpace c = true) : trimRight (l ++ ws) = trimRight l := by
  unfold trimRight
  rw [List.reverse_append]
  have : ∀ (xs ys : Bytes), (∀ c ∈ xs, isSpace c = true) → (xs ++ ys).dropWhile isSpace = ys.dropWhile isSpace := by
    intro xs
    induction xs with
    | nil => intro ys _; rfl
    | cons x xs ih =>
      intro ys hx
      rw [List.cons_append, List.dropWhile_cons, if_pos (hx x (.head _))]
      exact ih ys fun c hc => hx c (.tail _ hc)
  rw [this _ _ fun c hc => h c (List.mem_reverse.mp hc)]

theorem trimRight_stop (l : Bytes) (c : UInt8) (r : Bytes) (h : isSpace c = false) : trimRight (l ++ c :: r) = l ++ c :: trimRight r := by
  unfold trimRight
  rw [List.reverse_append, List.reverse_cons, List.append_assoc]
  have : ∀ (xs ys : Bytes), (xs ++ ([c] ++ ys)).dropWhile isSpace = xs.dropWhile isSpace ++ ([c] ++ ys) := by
    intro xs ys
    induction xs with
    | nil => simp [h]
    | cons x xs ih =>
      rw [List.cons_append, List.dropWhile_cons, List.dropWhile_cons]
      split
      · exact ih
      · rfl
  rw [this]
  simp

theorem trimRight_none (l : Bytes) (h : ∀ c ∈ l, isSpace c = false) : trimRight l = l := by
  rcases List.eq_nil_or_concat l with rfl | ⟨r, c, rfl⟩
  · rfl
  · rw [List.concat_eq_append] at h ⊢
    rw [trimRight_stop _ _ _ (h c (by simp))]
    rfl

theorem trimRight_split (l : Bytes) : ∃ ws, l = trimRight l ++ ws ∧ ∀ c ∈ ws, isSpace c = true := by
  refine ⟨(l.reverse.takeWhile isSpace).reverse, ?_, ?_⟩
  · unfold trimRight
    rw [← List.reverse_append, List.takeWhile_append_dropWhile, List.reverse_reverse]
  · intro c hc
    have hc := List.mem_reverse.mp hc
    have : ∀ (xs : Bytes), c ∈ xs.takeWhile isSpace → isSpace c = true := by
      intro xs
      induction xs with
      | nil => intro h; cases h
      | cons x xs ih =>
        intro h
        rw [List.takeWhile_cons] at h
        split at h
        · next hx => rcases List.mem_cons.mp h with rfl | h
                     · exact hx
                     · exact ih h
        · cases h
    exact this _ hc

theorem cut_none (sep : UInt8) (l : Bytes) (h : sep ∉ l) : (cut sep l).1 = l := by
  induction l with
  | nil => rfl
  | cons c l ih =>
    rw [cut, if_neg (fun e : c = sep => h (e ▸ .head _))]
    simp only [ih (fun e => h (.tail _ e))]

theorem cut_some (sep : UInt8) (l r : Bytes) (h : sep ∉ l) : (cut sep (l ++ sep :: r)).1 = l := by
  induction l with
  | nil => rw [List.nil_append, cut, if_pos rfl]
  | cons c l ih =>
    rw [List.cons_append, cut, if_neg (fun e : c = sep => h (e ▸ .head _))]
    simp only [ih (fun e => h (.tail _ e))]

/-- the lines with a size, as `SizeLine`, are those that are accepted -/
theorem chunkSize_iff (x : Bytes) (n : Nat) (hx : 10 ∉ x) (hl : x.length + 1 < 4096) : chunkSize (x ++ [10]) = some n ↔ SizeLine n (x ++ [10]) := by
  have hsp : ∀ c : UInt8, c = 32 ∨ c = 9 ∨ c = 13 → isSpace c = true := by
    rintro c (rfl | rfl | rfl) <;> rfl
  have h10 : trimRight (x ++ [10]) = trimRight x := trimRight_space x [10] (fun c hc => by rw [List.mem_singleton.mp hc]; rfl)
  unfold chunkSize
  rw [h10]
  constructor
  · intro h
    obtain ⟨ws, hw, hws⟩ := trimRight_split x
    obtain ⟨hh, h16⟩ := hex_parseHex _ 0 0 n [] (by omega) .nil h
    rw [List.nil_append] at hh
    rw [Nat.zero_add] at h16
    have hws' : ∀ c ∈ ws, c = 32 ∨ c = 9 ∨ c = 13 := by
      intro c hc
      have h1 := hws c hc
      have h2 : c ≠ 10 := fun e => hx (by rw [hw]; exact List.mem_append_right _ (e ▸ hc))
      simp only [isSpace, Bool.or_eq_true, decide_eq_true_eq] at h1
      rcases h1 with ((h1 | h1) | h1) | h1
      · exact .inl h1
      · exact .inr (.inl h1)
      · exact absurd h1 h2
      · exact .inr (.inr h1)
    generalize hy : trimRight x = y at hw hh h16
    by_cases hs : (59 : UInt8) ∈ y
    · obtain ⟨a, z, hyz, ha⟩ := List.eq_append_cons_of_mem hs
      rw [hyz, cut_some _ _ _ ha] at hh h16
      refine ⟨a, 59 :: z ++ ws, by rw [hw, hyz]; simp, hh, h16, ?_, .inr rfl, by simpa using hl⟩
      intro hm
      apply hx
      rw [hw, hyz, List.append_assoc]
      exact List.mem_append_right _ hm
    · rw [cut_none _ _ hs] at hh h16
      refine ⟨y, ws, by rw [← hw], hh, h16, ?_, .inl hws', by simpa using hl⟩
      intro hm
      exact hx (by rw [hw]; exact List.mem_append_right _ hm)
  · rintro ⟨ds, tail, e, hh, h16, ht, hor, -⟩
    have e' : x = ds ++ tail := List.append_inj_left' e rfl
    subst e'
    have hc : (cut 59 (trimRight (ds ++ tail))).1 = ds := by
      have h59 : (59 : UInt8) ∉ ds := fun h => (hex_not_space hh _ h).2.1 rfl
      rcases hor with hor | hor
      · rw [trimRight_space _ _ (fun c hc => hsp c (hor c hc)), trimRight_none _ (fun c hc => (hex_not_space hh c hc).1), cut_none _ _ h59]
      · cases tail with
        | nil => cases hor
        | cons a tail =>
          simp only [List.head?_cons, Option.some.injEq] at hor
          subst hor
          rw [trimRight_stop _ _ _ rfl, cut_some _ _ _ h59]
    rw [hc]
    exact parseHex_hex hh h16

theorem idxOf_split {data : Bytes} {p : Nat} (h : data.idxOf? 10 = some p) : ∃ x r, data = x ++ 10 :: r ∧ x.length = p ∧ (10 : UInt8) ∉ x := by
  by_cases hm : (10 : UInt8) ∈ data
  · obtain ⟨x, r, e, hx⟩ := List.eq_append_cons_of_mem hm
    refine ⟨x, r, e, ?_, hx⟩
    subst e
    have : ∀ (x r : Bytes), (10 : UInt8) ∉ x → (x ++ 10 :: r).idxOf? 10 = some x.length := by
      intro x r
      induction x with
      | nil => intro _; simp [List.idxOf?_cons]
      | cons c x ih =>
        intro hx
        rw [List.cons_append, List.idxOf?_cons, if_neg (by simp only [beq_iff_eq]; exact fun e => hx (e ▸ .head _)), ih (fun e => hx (.tail _ e))]
        rfl
    rw [this x r hx] at h
    exact Option.some.inj h
  · rw [List.idxOf?_eq_none_iff.mpr hm] at h
    cases h

theorem idxOf_line (x r : Bytes) (hx : (10 : UInt8) ∉ x) : (x ++ 10 :: r).idxOf? 10 = some x.length := by
  cases e : (x ++ 10 :: r).idxOf? 10 with
  | none => exact absurd (List.mem_append_right x (List.Mem.head r)) (List.idxOf?_eq_none_iff.mp e)
  | some p =>
    obtain ⟨x', r', e1, e2, hx'⟩ := idxOf_split e
    have : ∀ (a b c d : Bytes), (10 : UInt8) ∉ a → (10 : UInt8) ∉ c → a ++ 10 :: b = c ++ 10 :: d → a = c := by
      intro a
      induction a with
      | nil =>
        intro b c d _ hc e
        cases c with
        | nil => rfl
        | cons y c => rw [List.nil_append, List.cons_append] at e; exact absurd ((List.cons.inj e).1 ▸ .head _) hc
      | cons y a ih =>
        intro b c d ha hc e
        cases c with
        | nil => rw [List.nil_append, List.cons_append] at e; exact absurd ((List.cons.inj e).1 ▸ .head _) ha
        | cons z c =>
          obtain ⟨e1, e2⟩ := List.cons.inj e
          rw [e1, ih b c d (fun h => ha (.tail _ h)) (fun h => hc (.tail _ h)) e2]
    rw [this x r x' r' hx hx' e1, e2]

/-- the end of a header: where `doubleCRLF` finds it -/
theorem doubleCRLF_skip (k : Nat) (c : UInt8) (cs : Bytes) (h : ∀ v, c :: cs ≠ 13 :: 10 :: 13 :: 10 :: v) : doubleCRLF k (c :: cs) = doubleCRLF (k + 1) cs := by
  rw [doubleCRLF]
  intro v e1 e2
  exact h v (by rw [e1, e2])

theorem doubleCRLF_found (more : Bytes) (u : Bytes) : ∀ k t, t = u ++ [13, 10, 13, 10] → (∀ u v, t = u ++ [13, 10, 13, 10] ++ v → v = []) →
    doubleCRLF k (t ++ more) = some (k + t.length) := by
  induction u with
  | nil => intro k t ht _; subst ht; rw [List.nil_append, List.cons_append, List.cons_append, List.cons_append, List.cons_append, doubleCRLF]; rfl
  | cons c u ih =>
    intro k t ht hf
    subst ht
    rw [List.cons_append, List.cons_append, doubleCRLF_skip]
    · rw [ih (k + 1) (u ++ [13, 10, 13, 10]) rfl]
      · simp only [List.length_cons]; congr 1; omega
      · intro u' v' e
        exact hf (c :: u') v' (by rw [List.cons_append, e]; rfl)
    · intro v e
      have h4 : 4 < (c :: (u ++ [13, 10, 13, 10])).length := by simp only [List.length_cons, List.length_append, List.length_nil]; omega
      have e2 : (c :: (u ++ [13, 10, 13, 10])).take 4 = [13, 10, 13, 10] := by
        have := congrArg (List.take 4) e
        rw [← List.cons_append, List.take_append_of_le_length (Nat.le_of_lt h4)] at this
        rw [this]; rfl
      have := hf [] ((c :: (u ++ [13, 10, 13, 10])).drop 4) (by
        have h9 := (List.take_append_drop 4 (c :: (u ++ [13, 10, 13, 10]))).symm
        rw [e2] at h9
        exact h9)
      have hl := congrArg List.length this
      rw [List.length_drop, List.length_nil] at hl
      omega

theorem doubleCRLF_first (data : Bytes) : ∀ k m, doubleCRLF k data = some m → ∃ u v, data = u ++ [13, 10, 13, 10] ++ v ∧ m = k + (u.length + 4) ∧
    ∀ u' v', u ++ [13, 10, 13, 10] = u' ++ [13, 10, 13, 10] ++ v' → v' = [] := by
  induction data with
  | nil => intro k m h; cases h
  | cons c cs ih =>
    intro k m h
    by_cases hm : ∃ v, c :: cs = 13 :: 10 :: 13 :: 10 :: v
    · obtain ⟨v, e⟩ := hm
      rw [e, doubleCRLF] at h
      refine ⟨[], v, by rw [e]; rfl, by rw [← Option.some.inj h]; rfl, ?_⟩
      intro u' v' e'
      have := congrArg List.length e'
      simp only [List.length_append, List.length_cons, List.length_nil] at this
      exact List.length_eq_zero_iff.mp (by omega)
    · rw [doubleCRLF_skip _ _ _ fun v e => hm ⟨v, e⟩] at h
      obtain ⟨u, v, e1, e2, e3⟩ := ih _ _ h
      refine ⟨c :: u, v, by rw [e1]; rfl, by rw [e2, List.length_cons]; omega, ?_⟩
      intro u' v' e'
      cases u' with
      | nil =>
        exfalso
        apply hm
        refine ⟨v' ++ v, ?_⟩
        rw [e1]
        have : c :: (u ++ [13, 10, 13, 10] ++ v) = (c :: u ++ [13, 10, 13, 10]) ++ v := rfl
        rw [this, e']
        rfl
      | cons d u' =>
        exact e3 u' v' (List.cons.inj e').2

/-- what may follow the last chunk -/
theorem readTrailer_iff (mime : Bytes → Bool) (data : Bytes) (e : End) (b r : Bytes) :
    readTrailer mime data e b = .body r ↔ r = b ∧ ∃ t more, data = t ++ more ∧ Trailer mime t := by
  have hs : short e ≠ .body r := by cases e <;> (intro h; cases h)
  unfold readTrailer
  constructor
  · intro h
    split at h
    · exact absurd h hs
    · next h2 =>
      split at h
      · next h3 =>
        cases h
        exact ⟨rfl, [13, 10], data.drop 2, by rw [← h3, List.take_append_drop], .inl rfl⟩
      · next h3 =>
        split at h
        · next k hk =>
          split at h
          · next hk2 =>
            split at h
            · next hm =>
              cases h
              obtain ⟨u, v, e1, e2, e3⟩ := doubleCRLF_first data 0 k hk
              have ht : data.take k = u ++ [13, 10, 13, 10] := by
                rw [e1, List.take_append_of_le_length (by simp only [List.length_append, List.length_cons, List.length_nil]; omega), List.take_of_length_le]
                simp only [List.length_append, List.length_cons, List.length_nil]; omega
              refine ⟨rfl, data.take k, data.drop k, (List.take_append_drop k data).symm, .inr ⟨⟨u, ht⟩, ?_, ?_, ?_, hm⟩⟩
              · rw [ht]; exact e3
              · rw [List.take_take, Nat.min_eq_left (by omega)]; exact h3
              · rw [List.length_take]; omega
            · cases h
          · cases h
        · split at h
          · cases h
          · exact absurd h hs
  · rintro ⟨rfl, t, more, rfl, rfl | ⟨⟨u, hu⟩, h1, h2, h3, h4⟩⟩
    · rw [if_neg (by simp), if_pos (by simp)]
    · have hl : t.length = u.length + 4 := by rw [hu]; simp
      rw [if_neg (by rw [List.length_append]; omega), if_neg (by rw [List.take_append_of_le_length (by omega)]; exact h2), doubleCRLF_found more u 0 t hu h1]
      simp only [Nat.zero_add]
      rw [if_pos h3, List.take_left, if_pos h4]

/-- what is read from chunks -/
theorem readChunks_sound (mime : Bytes → Bool) (e : End) (r : Bytes) (f : Nat) : ∀ data b, readChunks mime f data e b = .body r →
    ∃ b' w more, r = b ++ b' ∧ data = w ++ more ∧ Chunked mime b' w := by
  have hs : short e ≠ .body r := by cases e <;> (intro h; cases h)
  induction f with
  | zero => intro data b h; cases h
  | succ f ih =>
    intro data b h
    rw [readChunks] at h
    cases hp : data.idxOf? 10 with
    | none =>
      rw [hp] at h
      simp only [] at h
      split at h
      · cases h
      · exact absurd h hs
    | some p =>
      rw [hp] at h
      simp only [] at h
      obtain ⟨x, rest, rfl, rfl, hx⟩ := idxOf_split hp
      have ht : (x ++ 10 :: rest).take (x.length + 1) = x ++ [10] := by
        rw [List.take_append, List.take_of_length_le (by omega)]; simp
      have hd : (x ++ 10 :: rest).drop (x.length + 1) = rest := by
        rw [List.drop_append, List.drop_of_length_le (by omega)]; simp
      rw [ht, hd] at h
      split at h
      · cases h
      · next h4 =>
        cases hc : chunkSize (x ++ [10]) with
        | none => rw [hc] at h; cases h
        | some n =>
          rw [hc] at h
          have hsl := (chunkSize_iff x n hx (by omega)).mp hc
          cases n with
          | zero =>
            obtain ⟨rfl, t, more, rfl, htr⟩ := (readTrailer_iff mime rest e b r).mp h
            exact ⟨[], x ++ [10] ++ t, more, by rw [List.append_nil], by simp, .last _ _ hsl htr⟩
          | succ n =>
            simp only [] at h
            split at h
            · exact absurd h hs
            · next h5 =>
              split at h
              · next h6 =>
                obtain ⟨b', w, more, h1, h2, h3⟩ := ih _ _ h
                have hcl : (rest.take (n + 1)).length = n + 1 := by rw [List.length_take]; omega
                refine ⟨rest.take (n + 1) ++ b', x ++ [10] ++ rest.take (n + 1) ++ [13, 10] ++ w, more, by rw [h1, List.append_assoc], ?_, .more _ _ _ _ ?_ (hcl.symm ▸ hsl) h3⟩
                · have h7 : rest = rest.take (n + 1) ++ ([13, 10] ++ (w ++ more)) := by
                    rw [← h2, ← h6, ← List.drop_drop (l := rest) (i := 2) (j := n + 1), List.take_append_drop, List.take_append_drop]
                  have h8 : x ++ 10 :: rest = x ++ [10] ++ rest := by simp
                  rw [h8]
                  conv => lhs; rw [h7]
                  simp only [List.append_assoc]
                · intro e0
                  rw [e0] at hcl
                  cases hcl
              · cases h

theorem sizeLine_split {n : Nat} {l : Bytes} (h : SizeLine n l) : ∃ x, l = x ++ [10] ∧ (10 : UInt8) ∉ x ∧ x.length + 1 < 4096 := by
  obtain ⟨ds, tail, rfl, hh, -, ht, -, hl⟩ := h
  refine ⟨ds ++ tail, rfl, ?_, by rw [List.length_append, List.length_singleton] at hl; exact hl⟩
  intro hm
  rcases List.mem_append.mp hm with hm | hm
  · exact (hex_not_space hh _ hm).2.2 rfl
  · exact ht hm

theorem readChunks_complete (mime : Bytes → Bool) (e : End) {b' w : Bytes} (h : Chunked mime b' w) : ∀ f more b, w.length < f →
    readChunks mime f (w ++ more) e b = .body (b ++ b') := by
  induction h with
  | last l t hl ht =>
    intro f more b hf
    cases f with
    | zero => omega
    | succ f =>
      obtain ⟨x, rfl, hx, hx4⟩ := sizeLine_split hl
      have e1 : x ++ [10] ++ t ++ more = x ++ 10 :: (t ++ more) := by simp
      rw [readChunks, e1, idxOf_line x _ hx]
      simp only []
      have ht' : (x ++ 10 :: (t ++ more)).take (x.length + 1) = x ++ [10] := by
        rw [List.take_append, List.take_of_length_le (by omega)]; simp
      have hd : (x ++ 10 :: (t ++ more)).drop (x.length + 1) = t ++ more := by
        rw [List.drop_append, List.drop_of_length_le (by omega)]; simp
      rw [if_neg (by omega), ht', hd, (chunkSize_iff x 0 hx hx4).mpr hl]
      simp only []
      rw [List.append_nil]
      exact (readTrailer_iff mime _ e b b).mpr ⟨rfl, t, more, rfl, ht⟩
  | more c l b' w hc hl hw ih =>
    intro f more b hf
    cases f with
    | zero => omega
    | succ f =>
      obtain ⟨x, rfl, hx, hx4⟩ := sizeLine_split hl
      generalize hr : c ++ ([13, 10] ++ (w ++ more)) = rest
      have e1 : x ++ [10] ++ c ++ [13, 10] ++ w ++ more = x ++ 10 :: rest := by rw [← hr]; simp
      rw [readChunks, e1, idxOf_line x _ hx]
      simp only []
      have ht' : (x ++ 10 :: rest).take (x.length + 1) = x ++ [10] := by
        rw [List.take_append, List.take_of_length_le (by omega)]; simp
      have hd : (x ++ 10 :: rest).drop (x.length + 1) = rest := by
        rw [List.drop_append, List.drop_of_length_le (by omega)]; simp
      rw [if_neg (by omega), ht', hd, (chunkSize_iff x c.length hx hx4).mpr hl]
      obtain ⟨n, hn⟩ : ∃ n, c.length = n + 1 := by
        cases c with
        | nil => exact absurd rfl hc
        | cons y c => exact ⟨c.length, rfl⟩
      rw [hn]
      simp only []
      rw [← hn]
      have h1 : rest.take c.length = c := by rw [← hr, List.take_left]
      have h2 : rest.drop c.length = [13, 10] ++ (w ++ more) := by rw [← hr, List.drop_left]
      have h3 : rest.drop (c.length + 2) = w ++ more := by rw [← List.drop_drop, h2]; rfl
      have h4 : ¬ rest.length < c.length + 2 := by rw [← hr]; simp only [List.length_append, List.length_cons, List.length_nil]; omega
      rw [if_neg h4, h2, if_pos (by rfl), h3, h1, ih f more (b ++ c) (by simp only [List.length_append, List.length_cons, List.length_nil] at hf; omega), List.append_assoc]

end Verif.Body
