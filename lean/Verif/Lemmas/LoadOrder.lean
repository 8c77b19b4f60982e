import Verif.Spec.LoadOrder
import Verif.Props.LoadText
/-
Helper lemmas for C105_exact.
-/
set_option autoImplicit false

namespace Verif.LoadText
open Verif.Bencode Verif.Bencode.Spec Verif.Files Verif.Torrent Verif.Path Verif.Info Verif.Layout

theorem bind_err {α β : Type} {o : Out α} {f : α → Out β} {P : Why → Prop} :
    (∃ w, o.bind f = .err w ∧ P w) ↔ (∃ w, o = .err w ∧ P w) ∨ ∃ a, o = .ok a ∧ ∃ w, f a = .err w ∧ P w := by
  cases o with
  | ok a =>
    constructor
    · rintro ⟨w, h, hp⟩; exact .inr ⟨a, rfl, w, h, hp⟩
    · rintro (⟨w, h, -⟩ | ⟨b, h, w, hw, hp⟩)
      · cases h
      · cases h; exact ⟨w, hw, hp⟩
  | err e =>
    constructor
    · rintro ⟨w, h, hp⟩; cases h; exact .inl ⟨_, rfl, hp⟩
    · rintro (⟨w, h, hp⟩ | ⟨b, h, -⟩)
      · cases h; exact ⟨_, rfl, hp⟩
      · cases h
  | panic =>
    constructor
    · rintro ⟨w, h, hp⟩; cases h
    · rintro (⟨w, h, hp⟩ | ⟨b, h, -⟩) <;> cases h
  | timeout =>
    constructor
    · rintro ⟨w, h, hp⟩; cases h
    · rintro (⟨w, h, hp⟩ | ⟨b, h, -⟩) <;> cases h

theorem kind_unique {v : Value} {k k' : Kind} (h : Is k v) (h' : Is k' v) : k = k' := by
  cases h <;> cases h' <;> rfl

theorem bad_iff {d : Dict} {b : Bytes} (hp : Parses (.dict d) b) (key : Bytes) (k : Kind) (addr t : Bytes) :
    (∃ w, Bad d key k w ∧ w.text addr = t) ↔ Unmet addr d key k t := by
  constructor
  · rintro ⟨w, h, rfl⟩
    rcases bad_text hp h addr with ⟨h1, h2⟩ | ⟨v, k', h1, h2, h3, h4⟩
    · rw [h2]; exact .missing h1
    · rw [h4]; exact .wrong v k' h1 h2 h3
  · intro h
    cases h with
    | missing h =>
      refine ⟨.missing key, .missing ?_, rfl⟩
      cases hl : d.lookup key with
      | none => rfl
      | some v => exact absurd hl (h v)
    | wrong v k' h1 h2 h3 =>
      refine ⟨_, .wrong v h1 (fun h => h3 (kind_unique h2 h)), ?_⟩
      simp only [Why.text, typeText, found_eq h2, decide_eq_true_eq]

/-- one of the getters for the type `k` with the constructor `c` -/
def Getter {α : Type} (g : Out α) (c : α → Value) (d : Dict) (key : Bytes) (k : Kind) : Prop :=
  (∀ a, g = .ok a ↔ Has d key (c a)) ∧ ∀ w, g = .err w ↔ Bad d key k w

theorem bad_not {d : Dict} {key : Bytes} {k : Kind} {w : Why} (h : Bad d key k w) (v : Value) (hv : d.lookup key = some v) : ¬ Is k v := by
  cases h with
  | missing h => rw [h] at hv; cases hv
  | wrong u h hn => rw [h] at hv; cases hv; exact hn

theorem bad_unique {d : Dict} {key : Bytes} {k : Kind} {w w' : Why} (h : Bad d key k w) (h' : Bad d key k w') : w = w' := by
  cases h with
  | missing h =>
    cases h' with
    | missing _ => rfl
    | wrong u h' _ => rw [h] at h'; cases h'
  | wrong u h _ =>
    cases h' with
    | missing h' => rw [h] at h'; cases h'
    | wrong u' h' _ => rw [h] at h'; cases h'; rfl

theorem getter_of {α : Type} {g : Out α} {c : α → Value} {d : Dict} {key : Bytes} {k : Kind} (hc : ∀ a, Is k (c a)) (hi : ∀ a b, c a = c b → a = b)
    (h : (∃ s, d.lookup key = some (c s) ∧ g = .ok s) ∨ ∃ w, g = .err w ∧ Bad d key k w) : Getter g c d key k := by
  rcases h with ⟨s, h1, h2⟩ | ⟨w, h1, h2⟩
  · subst h2
    refine ⟨fun a => ⟨?_, ?_⟩, fun w => ⟨?_, ?_⟩⟩
    · intro h; cases h; exact h1
    · intro h; unfold Has at h; rw [h1] at h; cases hi _ _ (Option.some.inj h); rfl
    · intro h; cases h
    · intro h; exact absurd (hc s) (bad_not h _ h1)
  · subst h1
    refine ⟨fun a => ⟨?_, ?_⟩, fun w => ⟨?_, ?_⟩⟩
    · intro h; cases h
    · intro h; exact absurd (hc a) (bad_not h2 _ h)
    · intro h; cases h; exact h2
    · intro h; rw [bad_unique h h2]

theorem string_getter (d : Dict) (key : Bytes) : Getter (getStringT d key) .str d key .str :=
  getter_of .str (by intro a b h; cases h; rfl) (string_out d key)
theorem int_getter (d : Dict) (key : Bytes) : Getter (getIntT d key) .int64 d key .int :=
  getter_of .int (by intro a b h; cases h; rfl) (int_out d key)
theorem dict_getter (d : Dict) (key : Bytes) : Getter (getDictT d key) .dict d key .dict :=
  getter_of .dict (by intro a b h; cases h; rfl) (dict_out d key)
theorem list_getter (d : Dict) (key : Bytes) : Getter (getListT d key) .list d key .list :=
  getter_of .list (by intro a b h; cases h; rfl) (list_out d key)

theorem getter_err {α : Type} {g : Out α} {c : α → Value} {d : Dict} {key b : Bytes} {k : Kind} (h : Getter g c d key k) (hp : Parses (.dict d) b) (addr t : Bytes) :
    (∃ w, g = .err w ∧ w.text addr = t) ↔ Unmet addr d key k t := by
  rw [← bad_iff hp]
  simp only [h.2]

theorem path_iff (vs : List Value) (acc : Bytes) (addr t : Bytes) :
    (∃ w, pathLoopT vs acc = .err w ∧ w.text addr = t) ↔
    ∃ (ps : List Bytes) (u : Value) (qs : List Value), vs = ps.map Value.str ++ u :: qs ∧ ¬ Is .str u ∧
      t = errorf (ascii "file entry contains invalid path [" ++ fmtV u ++ ascii "]") := by
  induction vs generalizing acc with
  | nil =>
    constructor
    · rintro ⟨w, h, -⟩; cases h
    · rintro ⟨ps, u, qs, h, -⟩; cases ps <;> cases h
  | cons v vs ih =>
    have bad : ¬ Is .str v → pathLoopT (v :: vs) acc = .err (.badPath v) := by
      intro hn
      cases v with
      | str s => exact absurd (.str s) hn
      | _ => rfl
    by_cases hs : Is .str v
    · cases hs with
      | str s =>
        rw [pathLoopT, ih]
        constructor
        · rintro ⟨ps, u, qs, rfl, h1, h2⟩
          exact ⟨s :: ps, u, qs, rfl, h1, h2⟩
        · rintro ⟨ps, u, qs, h, h1, h2⟩
          cases ps with
          | nil => cases h; exact absurd (.str _) h1
          | cons p ps => cases h; exact ⟨ps, u, qs, rfl, h1, h2⟩
    · rw [bad hs]
      constructor
      · rintro ⟨w, h, rfl⟩
        cases h
        exact ⟨[], v, vs, rfl, hs, rfl⟩
      · rintro ⟨ps, u, qs, h, h1, h2⟩
        cases ps with
        | nil => cases h; exact ⟨_, rfl, h2.symm⟩
        | cons p ps => cases h; exact absurd (.str _) hs

/-- the message about an element of a path -/
def element (u : Value) : Bytes := errorf (ascii "file entry contains invalid path [" ++ fmtV u ++ ascii "]")

theorem entry_iff {v : Value} {b : Bytes} (hp : Parses v b) (addr t : Bytes) :
    (∃ w, benEntryT v = .err w ∧ w.text addr = t) ↔ BadFile element addr v t := by
  by_cases hd : Is .dict v
  · cases hd with
    | dict f =>
      unfold benEntryT
      simp only
      rw [bind_err, getter_err (int_getter f _) hp]
      constructor
      · rintro (h | ⟨n, hn, h⟩)
        · exact .length f t h
        · have hn := ((int_getter f _).1 n).mp hn
          rw [bind_err, getter_err (list_getter f _) hp] at h
          rcases h with h | ⟨l, hl, h⟩
          · exact .path f n t hn h
          · have hl := ((list_getter f _).1 l).mp hl
            rw [bind_err, path_iff] at h
            rcases h with ⟨ps, u, qs, rfl, h1, rfl⟩ | ⟨s, -, w, h, -⟩
            · exact .element f n ps u qs hn hl h1
            · split at h <;> cases h
      · intro h
        cases h with
        | notDict _ h => exact absurd (.dict f) h
        | length _ _ h => exact .inl h
        | path _ n _ hn h =>
          refine .inr ⟨n, ((int_getter f _).1 n).mpr hn, ?_⟩
          rw [bind_err, getter_err (list_getter f _) hp]
          exact .inl h
        | element _ n ps u qs hn hl h =>
          refine .inr ⟨n, ((int_getter f _).1 n).mpr hn, ?_⟩
          rw [bind_err]
          refine .inr ⟨_, ((list_getter f _).1 _).mpr hl, ?_⟩
          rw [bind_err, path_iff]
          exact .inl ⟨ps, u, qs, rfl, h, rfl⟩
  · have : benEntryT v = .err .notEntry := by
      cases v with
      | dict f => exact absurd (.dict f) hd
      | _ => rfl
    rw [this]
    constructor
    · rintro ⟨w, h, rfl⟩; cases h; exact .notDict v hd
    · intro h
      cases h with
      | notDict _ h => exact ⟨_, rfl, rfl⟩
      | length f _ _ => exact absurd (.dict f) hd
      | path f _ _ _ _ => exact absurd (.dict f) hd
      | element f _ _ _ _ _ _ _ => exact absurd (.dict f) hd

theorem entry_ok (v : Value) : (∃ e, benEntryT v = .ok e) ↔ ∃ f, FileOf v f ∧ f.2 ≠ [] := by
  have ha := agree_entry v
  rcases benEntry_cases v with ⟨f, h1, h2, e, h3, -⟩ | ⟨n, h1, h2⟩ | ⟨h1, e, h2⟩
  · rw [h3] at ha
    generalize benEntryT v = o at ha
    cases ha
    exact ⟨fun _ => ⟨f, h1, h2⟩, fun _ => ⟨e, rfl⟩⟩
  · rw [h2] at ha
    generalize benEntryT v = o at ha
    cases ha
    constructor
    · rintro ⟨e, h⟩; cases h
    · rintro ⟨f, ⟨d, rfl, -, h4⟩, h5⟩
      obtain ⟨d', hd, -, h6⟩ := h1
      cases hd
      rw [h4] at h6
      simp at h6
      exact absurd h6 h5
  · rw [h2] at ha
    generalize benEntryT v = o at ha
    cases ha
    constructor
    · rintro ⟨e, h⟩; cases h
    · rintro ⟨f, h, -⟩; exact absurd ⟨f, h⟩ h1

theorem list_iff {vs : List Value} (hp : ∀ v ∈ vs, ∃ b, Parses v b) (addr t : Bytes) :
    (∃ w, FromBenListT vs = .err w ∧ w.text addr = t) ↔ ∃ pre v post ns, vs = pre ++ v :: post ∧ FilesOf pre ns ∧ BadFile element addr v t := by
  induction vs with
  | nil =>
    constructor
    · rintro ⟨w, h, -⟩; cases h
    · rintro ⟨pre, v, post, ns, h, -⟩; cases pre <;> cases h
  | cons v vs ih =>
    obtain ⟨b, hb⟩ := hp v (by simp)
    have ih := ih (fun v hv => hp v (by simp [hv]))
    rw [FromBenListT, bind_err, entry_iff hb]
    constructor
    · rintro (h | ⟨e, he, h⟩)
      · exact ⟨[], v, vs, [], rfl, .nil, h⟩
      · rw [bind_err] at h
        rcases h with h | ⟨es, -, w, h, -⟩
        · obtain ⟨pre, u, post, ns, rfl, h1, h2⟩ := ih.mp h
          obtain ⟨f, hf, hne⟩ := (entry_ok v).mp ⟨e, he⟩
          exact ⟨v :: pre, u, post, _, rfl, .cons v pre f ns hf hne h1, h2⟩
        · cases h
    · rintro ⟨pre, u, post, ns, h, h1, h2⟩
      cases h1 with
      | nil => cases h; exact .inl h2
      | cons v' pre f ns hf hne h1 =>
        cases h
        obtain ⟨e, he⟩ := (entry_ok v).mpr ⟨f, hf, hne⟩
        refine .inr ⟨e, he, ?_⟩
        rw [bind_err]
        exact .inl (ih.mpr ⟨pre, u, post, ns, rfl, h1, h2⟩)

theorem intAt_has {d : Dict} {key : Bytes} {n : Int} : intAt d key = some n ↔ Has d key (.int64 n) := by
  unfold intAt Has
  cases d.lookup key with
  | none => simp
  | some v => cases v <;> simp

theorem listAt_has {d : Dict} {key : Bytes} {n : List Value} : listAt d key = some n ↔ Has d key (.list n) := by
  unfold listAt Has
  cases d.lookup key with
  | none => simp
  | some v => cases v <;> simp

theorem filesOf_unique {vs : List Value} {ns ms : List Int} (h : FilesOf vs ns) (h' : FilesOf vs ms) : ns = ms := by
  induction h generalizing ms with
  | nil => cases h'; rfl
  | cons v vs f ns hf _ _ ih =>
    cases h' with
    | cons _ _ g ms hg _ h' =>
      obtain ⟨d, rfl, h1, -⟩ := hf
      obtain ⟨d', hd, h2, -⟩ := hg
      cases hd
      rw [h1] at h2
      rw [Option.some.inj h2, ih h']

theorem lengthsOf_unique {info : Dict} {ns ms : List Int} (h : LengthsOf info ns) (h' : LengthsOf info ms) : ns = ms := by
  rcases h with ⟨n, h1, rfl⟩ | ⟨h1, vs, h2, h3⟩
  · rcases h' with ⟨m, h4, rfl⟩ | ⟨h4, -⟩
    · rw [h1] at h4; cases h4; rfl
    · rw [h1] at h4; cases h4
  · rcases h' with ⟨m, h4, rfl⟩ | ⟨-, ws, h4, h5⟩
    · rw [h1] at h4; cases h4
    · rw [h2] at h4; cases h4; exact filesOf_unique h3 h5

/-- which lengths the entries have -/
theorem entries_ok (info : Dict) (name wd : Bytes) (ns : List Int) : (∃ es, entriesT info name wd = .ok es ∧ es.map EntryBase.length = ns) ↔ LengthsOf info ns := by
  have ha := agree_entries info name wd
  rcases entriesOf_cases info name wd with ⟨ms, es, h1, h2, h3⟩ | ⟨⟨h1, vs, h2, h3⟩, h4⟩ | ⟨h1, h2, e, h3⟩
  · rw [h2] at ha
    generalize entriesT info name wd = o at ha
    cases ha
    constructor
    · rintro ⟨es', h, h4⟩; cases h; rw [← h4, h3]; exact h1
    · intro h; exact ⟨es, rfl, by rw [h3]; exact lengthsOf_unique h1 h⟩
  · rw [h4] at ha
    generalize entriesT info name wd = o at ha
    cases ha
    constructor
    · rintro ⟨es', h, -⟩; cases h
    · rintro (⟨n, h5, -⟩ | ⟨-, ws, h5, h6⟩)
      · rw [h1] at h5; cases h5
      · rw [h2] at h5; cases h5
        obtain ⟨pre, v, post, ks, n, rfl, g1, g2⟩ := h3
        clear g1 h2
        exfalso
        induction pre generalizing ns with
        | nil =>
          cases h6 with
          | cons _ _ f _ hf hne _ =>
            obtain ⟨d, rfl, -, q1⟩ := hf
            obtain ⟨d', hd, -, q2⟩ := g2
            cases hd
            rw [q1] at q2
            simp at q2
            exact hne q2
        | cons x pre ih =>
          cases h6 with
          | cons _ _ f _ _ _ h6 => exact ih _ h6
  · rw [h3] at ha
    generalize entriesT info name wd = o at ha
    cases ha
    constructor
    · rintro ⟨es', h, -⟩; cases h
    · intro h; exact absurd ⟨_, h⟩ h1

theorem entries_iff {info : Dict} {b : Bytes} (hp : Parses (.dict info) b) (name wd addr t : Bytes) :
    (∃ w, entriesT info name wd = .err w ∧ w.text addr = t) ↔
    (∀ n, ¬ Has info (ascii "length") (.int64 n)) ∧
      (((∀ vs, ¬ Has info (ascii "files") (.list vs)) ∧ t = ascii "tracker error: missing keys 'length' and 'files', must have exactly 1") ∨
       ∃ pre v post ns, Has info (ascii "files") (.list (pre ++ v :: post)) ∧ FilesOf pre ns ∧ BadFile element addr v t) := by
  unfold entriesT
  rcases int_out info (ascii "length") with ⟨n, h1, h2⟩ | ⟨w1, h2, hb1⟩
  · rw [h2]
    constructor
    · rintro ⟨w, h, -⟩; cases h
    · rintro ⟨h, -⟩; exact absurd h1 (h n)
  · rw [h2]
    simp only
    have hno : ∀ n, ¬ Has info (ascii "length") (.int64 n) := fun n h => bad_not hb1 _ h (.int n)
    rcases list_out info (ascii "files") with ⟨vs, h3, h4⟩ | ⟨w2, h4, hb2⟩
    · rw [h4]
      simp only
      rw [bind_err]
      obtain ⟨bl, hpl⟩ := parses_lookup hp h3
      rw [list_iff (fun v hv => parses_mem hpl hv)]
      constructor
      · rintro (⟨pre, v, post, ns, rfl, h5, h6⟩ | ⟨es, -, w, h, -⟩)
        · exact ⟨hno, .inr ⟨pre, v, post, ns, h3, h5, h6⟩⟩
        · cases h
      · rintro ⟨-, ⟨h, -⟩ | ⟨pre, v, post, ns, h5, h6, h7⟩⟩
        · exact absurd h3 (h vs)
        · unfold Has at h5
          rw [h3] at h5
          cases h5
          exact .inl ⟨pre, v, post, ns, rfl, h6, h7⟩
    · rw [h4]
      have hnl : ∀ vs, ¬ Has info (ascii "files") (.list vs) := fun vs h => bad_not hb2 _ h (.list vs)
      constructor
      · rintro ⟨w, h, rfl⟩; cases h; exact ⟨hno, .inl ⟨hnl, rfl⟩⟩
      · rintro ⟨-, ⟨-, rfl⟩ | ⟨pre, v, post, ns, h5, -⟩⟩
        · exact ⟨_, rfl, rfl⟩
        · exact absurd h5 (hnl _)

/-- the hashes for lengths that are not negative and a positive piece length -/
theorem counted_iff (es : List EntryBase) (p np : Nat) (hp : 0 < p) (hes : ∀ e ∈ es, 0 ≤ e.length) (addr t : Bytes) :
    (∃ w, MakePieceMapT (entriesFrom p 0 es) np p (es.map EntryBase.length).sum = .err w ∧ w.text addr = t) ↔
    ∃ ms rest : List Int, es.map EntryBase.length = ms ++ rest ∧ ms.sum = np * p ∧ rest.sum ≠ 0 ∧
      t = ascii "only accounted for " ++ intDec ms.sum ++ ascii "/" ++ intDec (ms ++ rest).sum ++ ascii " bytes" := by
  have h0 : startPos (lens es) 0 = 0 := by simp [startPos]
  obtain ⟨a, b⟩ := loop_files hes (np := np) hp es 0 rfl ⟨List.replicate np [], 0, p, 0⟩ (by rw [h0]; exact at_init _ _ _) (by rw [h0]; omega)
  rw [h0] at a b
  have hsum := sum_lens es hes
  -- prefix sums
  have hpre : ∀ j, ((es.map EntryBase.length).take j).sum = (startPos (lens es) j : Nat) := by
    intro j
    unfold startPos lens
    rw [← List.map_take, ← List.map_take]
    exact sum_lens (es.take j) (fun e he => hes e (List.mem_of_mem_take he))
  have htd : ∀ j, ((es.map EntryBase.length).take j).sum + ((es.map EntryBase.length).drop j).sum = (es.map EntryBase.length).sum := by
    intro j
    rw [← List.sum_append, List.take_append_drop]
  unfold MakePieceMapT
  rcases Nat.lt_or_ge (np * p) (total (lens es)) with hlt | hge
  · rcases b hlt with ⟨⟨j, -, hj⟩, st, h1, h2⟩ | ⟨⟨j, -, hj1, hj2⟩, h1⟩
    · rw [h1]
      simp only
      have hc : st.totalCounted = ((np * p : Nat) : Int) := h2.counted
      rw [if_pos (by rw [hc, hsum]; omega)]
      constructor
      · rintro ⟨w, h, rfl⟩
        cases h
        refine ⟨(es.map EntryBase.length).take j, (es.map EntryBase.length).drop j, (List.take_append_drop _ _).symm, ?_, ?_, ?_⟩
        · rw [hpre, hj]; simp
        · have := htd j
          rw [hpre, hj, hsum] at this
          omega
        · rw [List.take_append_drop, hpre, hj, ← hc]; rfl
      · rintro ⟨ms, rest, g1, g2, g3, rfl⟩
        refine ⟨_, rfl, ?_⟩
        simp only [Why.text]
        rw [g1, g2, hc]
        simp
    · rw [h1]
      simp only
      constructor
      · rintro ⟨w, h, -⟩; cases h
      · rintro ⟨ms, rest, g1, g2, -, -⟩
        exfalso
        have hm := hpre ms.length
        rw [g1, List.take_left' rfl, g2] at hm
        have hm' : np * p = startPos (lens es) ms.length := by
          have : ((np * p : Nat) : Int) = (startPos (lens es) ms.length : Nat) := by rw [← hm]; simp
          exact_mod_cast this
        rcases Nat.lt_or_ge j ms.length with hjl | hjl
        · have := startPos_mono (lens es) (show j + 1 ≤ ms.length from hjl)
          omega
        · have := startPos_mono (lens es) hjl
          omega
  · obtain ⟨st, h1, h2⟩ := a hge
    rw [h1]
    simp only
    have hc : st.totalCounted = ((total (lens es) : Nat) : Int) := h2.counted
    rw [if_neg (by rw [hc, hsum]; simp)]
    constructor
    · rintro ⟨w, h, -⟩; cases h
    · rintro ⟨ms, rest, g1, g2, g3, -⟩
      exfalso
      have hm := hpre ms.length
      rw [g1, List.take_left' rfl, g2] at hm
      have hm' : np * p = startPos (lens es) ms.length := by
        have : ((np * p : Nat) : Int) = (startPos (lens es) ms.length : Nat) := by rw [← hm]; simp
        exact_mod_cast this
      have hle := startPos_le_total (lens es) ms.length
      have ht := htd ms.length
      rw [hpre, hsum, g1, List.drop_left' rfl] at ht
      omega

theorem info_iff {info : Dict} {b : Bytes} (hp : Parses (.dict info) b) (wd addr t : Bytes)
    (hs : ∀ pl ns, Has info (ascii "piece length") (.int64 pl) → LengthsOf info ns → 0 < pl ∧ ∀ n ∈ ns, 0 ≤ n) :
    (∃ w, FromDictT info wd = .err w ∧ w.text addr = t) ↔ BadInfo element addr info t := by
  -- the last step
  have last : ∀ name pl hashes es, Has info (ascii "name") (.str name) → Has info (ascii "piece length") (.int64 pl) → Has info (ascii "pieces") (.str hashes) →
      LengthsOf info (es.map EntryBase.length) →
      ((∃ w, NewTorInfoT name pl hashes es = .err w ∧ w.text addr = t) ↔
        (¬ 20 ∣ hashes.length ∧ t = ascii "hashes must be multiple of 20") ∨
        ∃ (np : Nat) (ms rest : List Int), hashes.length = 20 * np ∧ es.map EntryBase.length = ms ++ rest ∧ ms.sum = np * pl ∧ rest.sum ≠ 0 ∧
          t = ascii "only accounted for " ++ intDec ms.sum ++ ascii "/" ++ intDec (ms ++ rest).sum ++ ascii " bytes") := by
    intro name pl hashes es h1 h2 h3 h4
    obtain ⟨hpl, hns⟩ := hs pl _ h2 h4
    obtain ⟨p, rfl⟩ : ∃ p : Nat, pl = p := ⟨pl.toNat, by omega⟩
    have hes : ∀ e ∈ es, 0 ≤ e.length := fun e he => hns _ (List.mem_map_of_mem he)
    unfold NewTorInfoT
    split
    · rename_i h20
      have hnd : ¬ 20 ∣ hashes.length := fun h => h20 (Nat.mod_eq_zero_of_dvd h)
      constructor
      · rintro ⟨w, h, rfl⟩; cases h; exact .inl ⟨hnd, rfl⟩
      · rintro (⟨-, rfl⟩ | ⟨np, ms, rest, h, -⟩)
        · exact ⟨_, rfl, rfl⟩
        · exact absurd ⟨np, h⟩ hnd
    · rename_i h20
      have h20 : hashes.length = 20 * (hashes.length / 20) := by omega
      rw [makeFileList_eq p (by omega) es hes]
      simp only
      rw [bind_err, counted_iff es p _ (by omega) hes]
      constructor
      · rintro (⟨ms, rest, g1, g2, g3, g4⟩ | ⟨pm, -, w, h, -⟩)
        · exact .inr ⟨_, ms, rest, h20, g1, g2, g3, g4⟩
        · cases h
      · rintro (⟨h, -⟩ | ⟨np, ms, rest, g0, g1, g2, g3, g4⟩)
        · exact absurd ⟨_, h20⟩ h
        · obtain rfl : hashes.length / 20 = np := by omega
          exact .inl ⟨ms, rest, g1, g2, g3, g4⟩
  unfold FromDictT
  rw [bind_err, getter_err (string_getter info _) hp]
  constructor
  · rintro (h | ⟨name, hn, h⟩)
    · exact .name t h
    · have hn := ((string_getter info _).1 name).mp hn
      rw [bind_err, getter_err (int_getter info _) hp] at h
      rcases h with h | ⟨pl, hpl, h⟩
      · exact .pieceLen name t hn h
      · have hpl := ((int_getter info _).1 pl).mp hpl
        rw [bind_err, getter_err (string_getter info _) hp] at h
        rcases h with h | ⟨hashes, hh, h⟩
        · exact .pieces name pl t hn hpl h
        · have hh := ((string_getter info _).1 hashes).mp hh
          rw [bind_err, entries_iff hp] at h
          rcases h with ⟨hnl, ⟨hnf, rfl⟩ | ⟨pre, v, post, ns, h1, h2, h3⟩⟩ | ⟨es, he, h⟩
          · exact .noFiles name pl hashes hn hpl hh hnl hnf
          · exact .file name pl hashes pre v post ns t hn hpl hh hnl h1 h2 h3
          · have hlen := (entries_ok info name wd _).mp ⟨es, he, rfl⟩
            rcases (last name pl hashes es hn hpl hh hlen).mp h with ⟨g1, rfl⟩ | ⟨np, ms, rest, g0, g1, g2, g3, rfl⟩
            · exact .hashes name pl hashes _ hn hpl hh hlen g1
            · rw [g1] at hlen
              rw [← decInt_eq, ← decInt_eq]
              exact .counted name pl hashes np ms rest hn hpl hh hlen g0 g2 g3
  · have main : ∀ name pl hashes, Has info (ascii "name") (.str name) → Has info (ascii "piece length") (.int64 pl) → Has info (ascii "pieces") (.str hashes) →
        (∃ w, (entriesT info name wd).bind (fun fentries => NewTorInfoT name pl hashes fentries) = .err w ∧ w.text addr = t) →
        Unmet addr info (ascii "name") .str t ∨ ∃ a, getStringT info (ascii "name") = .ok a ∧
          ∃ w, ((getIntT info (ascii "piece length")).bind fun pieceLen => (getStringT info (ascii "pieces")).bind fun hashes =>
            (entriesT info a wd).bind fun fentries => NewTorInfoT a pieceLen hashes fentries) = .err w ∧ w.text addr = t := by
      intro name pl hashes hn hpl hh h
      refine .inr ⟨name, ((string_getter info _).1 name).mpr hn, ?_⟩
      rw [bind_err]
      refine .inr ⟨pl, ((int_getter info _).1 pl).mpr hpl, ?_⟩
      rw [bind_err]
      exact .inr ⟨hashes, ((string_getter info _).1 hashes).mpr hh, h⟩
    intro h
    cases h with
    | name _ h => exact .inl h
    | pieceLen name _ hn h =>
      refine .inr ⟨name, ((string_getter info _).1 name).mpr hn, ?_⟩
      rw [bind_err, getter_err (int_getter info _) hp]
      exact .inl h
    | pieces name pl _ hn hpl h =>
      refine .inr ⟨name, ((string_getter info _).1 name).mpr hn, ?_⟩
      rw [bind_err]
      refine .inr ⟨pl, ((int_getter info _).1 pl).mpr hpl, ?_⟩
      rw [bind_err, getter_err (string_getter info _) hp]
      exact .inl h
    | noFiles name pl hashes hn hpl hh hnl hnf =>
      refine main name pl hashes hn hpl hh ?_
      rw [bind_err, entries_iff hp]
      exact .inl ⟨hnl, .inl ⟨hnf, rfl⟩⟩
    | file name pl hashes pre v post ns _ hn hpl hh hnl h1 h2 h3 =>
      refine main name pl hashes hn hpl hh ?_
      rw [bind_err, entries_iff hp]
      exact .inl ⟨hnl, .inr ⟨pre, v, post, ns, h1, h2, h3⟩⟩
    | hashes name pl hashes ns hn hpl hh hl h20 =>
      refine main name pl hashes hn hpl hh ?_
      obtain ⟨es, he, hes⟩ := (entries_ok info name wd ns).mpr hl
      rw [bind_err]
      exact .inr ⟨es, he, (last name pl hashes es hn hpl hh (by rw [hes]; exact hl)).mpr (.inl ⟨h20, rfl⟩)⟩
    | counted name pl hashes np ms rest hn hpl hh hl h20 hsum hne =>
      refine main name pl hashes hn hpl hh ?_
      obtain ⟨es, he, hes⟩ := (entries_ok info name wd _).mpr hl
      rw [bind_err]
      refine .inr ⟨es, he, (last name pl hashes es hn hpl hh (by rw [hes]; exact hl)).mpr (.inr ⟨np, ms, rest, h20, hes, hsum, hne, ?_⟩)⟩
      rw [decInt_eq, decInt_eq]

theorem load_iff (H : Bytes → Bytes) (osErr data sp wd addr t : Bytes) (top : Dict) (hd : Decode data sp = .ok (.dict top)) (hs : Sensible top) :
    (∃ w, FromTorrentFileT H osErr (some data) sp wd = .err w ∧ w.text addr = t) ↔ BadTorrent element addr top t := by
  obtain ⟨b, hp⟩ := decode_parses' hd
  unfold FromTorrentFileT
  simp only [decodeT_eq hd]
  rw [bind_err, getter_err (string_getter top _) hp]
  constructor
  · rintro (h | ⟨a, ha, h⟩)
    · exact .announce t h
    · have ha := ((string_getter top _).1 a).mp ha
      rw [bind_err, getter_err (dict_getter top _) hp] at h
      rcases h with h | ⟨info, hi, h⟩
      · exact .info a t ha h
      · have hi := ((dict_getter top _).1 info).mp hi
        obtain ⟨bi, hpi⟩ := parses_lookup hp hi
        rw [bind_err, info_iff hpi _ _ _ (fun pl ns => hs info pl ns hi)] at h
        rcases h with h | ⟨ti, -, w, h, -⟩
        · exact .inside a info t ha hi h
        · cases h
  · intro h
    cases h with
    | announce _ h => exact .inl h
    | info a _ ha h =>
      refine .inr ⟨a, ((string_getter top _).1 a).mpr ha, ?_⟩
      rw [bind_err, getter_err (dict_getter top _) hp]
      exact .inl h
    | inside a info _ ha hi h =>
      refine .inr ⟨a, ((string_getter top _).1 a).mpr ha, ?_⟩
      rw [bind_err]
      refine .inr ⟨info, ((dict_getter top _).1 info).mpr hi, ?_⟩
      obtain ⟨bi, hpi⟩ := parses_lookup hp hi
      rw [bind_err, info_iff hpi _ _ _ (fun pl ns => hs info pl ns hi)]
      exact .inl h

end Verif.LoadText
