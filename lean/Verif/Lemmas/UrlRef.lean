import Verif.Lemmas.UrlParse
/- Lemmas about the model of `url.Parse`: user information, references. -/
set_option autoImplicit false

namespace Verif.UrlParse
open Verif.UrlSpec Verif.Query

theorem validUserinfo_iff (s : Bytes) : validUserinfo s = true ↔ UserChars s := by
  have h : ∀ c : UInt8, (alnum c || (ascii "-._:~!$&'()*+,;=%@").contains c) = true ↔
      c ∈ ascii "ABCDEFGHIJKLMNOPQRSTUVWXYZabcdefghijklmnopqrstuvwxyz0123456789-._:~!$&'()*+,;=%@" := all_bytes (by decide +kernel)
  unfold validUserinfo UserChars
  rw [List.all_eq_true]
  exact forall_congr' fun c => imp_congr_right fun _ => h c

theorem userChars_append {a b : Bytes} : UserChars (a ++ 58 :: b) ↔ UserChars a ∧ UserChars b := by
  unfold UserChars
  constructor
  · intro h
    exact ⟨fun c hc => h c (List.mem_append.mpr (.inl hc)), fun c hc => h c (List.mem_append.mpr (.inr (List.mem_cons_of_mem _ hc)))⟩
  · rintro ⟨h1, h2⟩ c hc
    rcases List.mem_append.mp hc with hc | hc
    · exact h1 c hc
    · rcases List.mem_cons.mp hc with rfl | hc
      · decide +kernel
      · exact h2 c hc

theorem parseAuthority_iff (a : Bytes) (u : Option (Bytes × Option Bytes)) (t : Bytes) : parseAuthority a = some (u, t) ↔ Authority a u t := by
  unfold parseAuthority
  rcases last_sep 64 a with hn | ⟨ui, h, rfl, hn⟩
  · rw [lastIndex_none _ _ hn]
    simp only [Option.bind_eq_bind, Option.bind_eq_some_iff, parseHost_iff, Option.some.injEq, Prod.mk.injEq]
    constructor
    · rintro ⟨h, hh, rfl, rfl⟩
      exact .host _ _ hn hh
    · intro hh
      cases hh with
      | host _ _ _ hh => exact ⟨_, hh, rfl, rfl⟩
      | user ui h => simp at hn
  · rw [lastIndex_append _ _ _ hn]
    have t1 : (ui ++ 64 :: h).take ui.length = ui := List.take_left
    have t2 : (ui ++ 64 :: h).drop (ui.length + 1) = h := by rw [← List.drop_drop, List.drop_left]; rfl
    simp only [t1, t2, Option.bind_eq_bind, Option.bind_eq_some_iff, parseHost_iff]
    have hA : Authority (ui ++ 64 :: h) u t ↔ ∃ v, u = some v ∧ Userinfo ui v ∧ Host h t := by
      constructor
      · intro hh
        generalize hg : ui ++ 64 :: h = g at hh
        cases hh with
        | host _ _ hn' => subst hg; simp at hn'
        | user ui' h' _ v hn' hu hh =>
          obtain ⟨rfl, rfl⟩ := last_unique hg hn hn'
          exact ⟨v, rfl, hu, hh⟩
      · rintro ⟨v, rfl, hu, hh⟩
        exact .user _ _ _ _ hn hu hh
    rw [hA]
    have hU : ∀ t', (if (!validUserinfo ui) = true then none else
        match cut 58 ui with
        | (name, password, hasPassword) =>
          if (!hasPassword) = true then (unescape .plain ui).bind fun name => some (some (name, (none : Option Bytes)), t')
          else (unescape .plain name).bind fun name => (unescape .plain password).bind fun password => some (some (name, some password), t')) = some (u, t) ↔
        t' = t ∧ ∃ v, u = some v ∧ Userinfo ui v := by
      intro t'
      by_cases hv : UserChars ui
      · rw [if_neg (by rw [(validUserinfo_iff ui).mpr hv]; decide)]
        rcases first_sep 58 ui with hc | ⟨name, pw, rfl, hc⟩
        · rw [cut_none _ _ hc]
          simp only [Bool.not_false, if_true, Option.bind_eq_some_iff, unescape_plain, Option.some.injEq, Prod.mk.injEq]
          constructor
          · rintro ⟨n, hn, rfl, rfl⟩
            exact ⟨rfl, _, rfl, .name _ _ hc hv hn⟩
          · rintro ⟨rfl, v, rfl, hu⟩
            cases hu with
            | name _ n _ _ hn => exact ⟨n, hn, rfl, rfl⟩
            | password => simp at hc
        · rw [cut_append _ _ _ hc]
          simp only [Bool.not_true, Bool.false_eq_true, if_false, Option.bind_eq_some_iff, unescape_plain, Option.some.injEq, Prod.mk.injEq]
          constructor
          · rintro ⟨n, hn, p, hp, rfl, rfl⟩
            exact ⟨rfl, _, rfl, .password _ _ _ _ hc (userChars_append.mp hv).1 (userChars_append.mp hv).2 hn hp⟩
          · rintro ⟨rfl, v, rfl, hu⟩
            generalize hg : name ++ 58 :: pw = g at hu
            cases hu with
            | name _ _ hc' => subst hg; simp at hc'
            | password s p n q hc' _ _ hn hp =>
              obtain ⟨rfl, rfl⟩ := first_unique hg hc hc'
              exact ⟨n, hn, q, hp, rfl, rfl⟩
      · rw [if_pos (by rw [Bool.not_eq_true', Bool.eq_false_iff]; exact fun h => hv ((validUserinfo_iff ui).mp h))]
        constructor
        · intro h; cases h
        · rintro ⟨-, v, -, hu⟩
          refine absurd ?_ hv
          cases hu with
          | name _ _ _ h => exact h
          | password _ _ _ _ _ h1 h2 => exact userChars_append.mpr ⟨h1, h2⟩
    constructor
    · rintro ⟨t', hh, hr⟩
      obtain ⟨rfl, v, rfl, hu⟩ := (hU t').mp hr
      exact ⟨v, rfl, hu, hh⟩
    · rintro ⟨v, rfl, hu, hh⟩
      exact ⟨t, hh, (hU t).mpr ⟨rfl, v, rfl, hu⟩⟩

/-! ### between scheme and query -/

/-- the middle of `parse` -/
def middle (u : URL) (rest : Bytes) : Option URL :=
  if rest.head? ≠ some 47 ∧ u.scheme ≠ [] then some { u with opaq := rest }
  else if rest.head? ≠ some 47 ∧ (cut 47 rest).1.contains 58 then none
  else if (u.scheme ≠ [] ∨ rest.take 3 ≠ [47, 47, 47]) ∧ rest.take 2 = [47, 47] then
    let authority := (cut 47 (rest.drop 2)).1
    let path := rest.drop (2 + authority.length)
    match parseAuthority authority with
    | none => none
    | some (user, host) => setPath { u with user := user, host := host } path
  else setPath u rest

theorem setPath_iff (u v : URL) (p : Bytes) : setPath u p = some v ↔ ∃ path, Text p path ∧ v = { u with path := path, rawPath := if p = escapePath path then [] else p } := by
  unfold setPath
  simp only [Option.bind_eq_bind, Option.bind_eq_some_iff, unescape_plain, Option.some.injEq]
  exact ⟨fun ⟨x, h, e⟩ => ⟨x, h, e.symm⟩, fun ⟨x, h, e⟩ => ⟨x, h, e.symm⟩⟩

theorem text_nil {t : Bytes} : Text [] t ↔ t = [] := by
  constructor
  · intro h; cases h; rfl
  · rintro rfl; exact .nil

theorem escapePath_nil : escapePath [] = [] := rfl

/-- the middle of a reference, for a URL with nothing but scheme and query so far -/
theorem middle_iff (scheme query : Bytes) (rest : Bytes) (v : URL) :
    middle { scheme := scheme, rawQuery := query } rest = some v ↔
      ∃ opaq user host p path, Rest (scheme != []) rest opaq user host p ∧ Text p path ∧
        v = { scheme := scheme, rawQuery := query, opaq := opaq, user := user, host := host, path := path, rawPath := if p = escapePath path then [] else p } := by
  unfold middle
  by_cases h47 : rest.head? = some 47
  · rw [if_neg (fun h => h.1 h47), if_neg (fun h => h.1 h47)]
    obtain ⟨r, rfl⟩ : ∃ r, rest = 47 :: r := by
      cases rest with
      | nil => simp at h47
      | cons c r => simp at h47; subst h47; exact ⟨r, rfl⟩
    by_cases h2 : r.head? = some 47
    · obtain ⟨r, rfl⟩ : ∃ r', r = 47 :: r' := by
        cases r with
        | nil => simp at h2
        | cons c r => simp at h2; subst h2; exact ⟨r, rfl⟩
      have htake : ((47 :: 47 :: r).take 3 = [47, 47, 47]) ↔ r.head? = some 47 := by
        cases r with
        | nil => simp
        | cons c r => simp
      by_cases h3 : scheme = [] ∧ r.head? = some 47
      · obtain ⟨rfl, h3⟩ := h3
        rw [if_neg (fun h => h.1.elim (fun h => h rfl) (fun h => h (htake.mpr h3))), setPath_iff]
        obtain ⟨r, rfl⟩ : ∃ r', r = 47 :: r' := by
          cases r with
          | nil => simp at h3
          | cons c r => simp at h3; subst h3; exact ⟨r, rfl⟩
        constructor
        · rintro ⟨path, hp, rfl⟩
          exact ⟨[], none, [], _, path, .slashes _ rfl, hp, rfl⟩
        · rintro ⟨opaq, user, host, p, path, hr, hp, rfl⟩
          generalize hg : 47 :: 47 :: 47 :: r = g at hr
          cases hr with
          | opaq _ h => cases h
          | relative _ _ h => subst hg; simp at h
          | rooted h h' => cases hg; simp at h'
          | slashes => cases hg; exact ⟨path, hp, rfl⟩
          | authority a p user host ha hp' hab =>
            exfalso
            simp only [List.cons_append, List.cons.injEq, true_and] at hg
            cases a with
            | nil => rw [hab rfl rfl] at hg; cases hg
            | cons c a => cases hg; simp at ha
      · rw [if_pos ⟨by
          by_cases hs : scheme = []
          · exact .inr fun h => h3 ⟨hs, htake.mp h⟩
          · exact .inl hs, rfl⟩]
        simp only [List.drop_succ_cons, List.drop_zero]
        have hcut : ∃ a p, r = a ++ p ∧ 47 ∉ a ∧ (p = [] ∨ p.head? = some 47) ∧ (cut 47 r).1 = a := by
          rcases first_sep 47 r with h | ⟨a, b, rfl, h⟩
          · exact ⟨r, [], by simp, h, .inl rfl, by rw [cut_none _ _ h]⟩
          · exact ⟨a, 47 :: b, rfl, h, .inr rfl, by rw [cut_append _ _ _ h]⟩
        obtain ⟨a, p, rfl, ha, hp, hc⟩ := hcut
        have hdrop : (47 :: 47 :: (a ++ p)).drop (2 + a.length) = p := by
          rw [Nat.add_comm, List.drop_succ_cons, List.drop_succ_cons, List.drop_left]
        rw [hc, hdrop]
        have huniq : ∀ {a' p' : Bytes}, a ++ p = a' ++ p' → 47 ∉ a' → (p' = [] ∨ p'.head? = some 47) → a = a' ∧ p = p' := by
          intro a' p' e ha' hp'
          have : (cut 47 (a' ++ p')).1 = a' := by
            rcases hp' with rfl | hp'
            · rw [List.append_nil, cut_none _ _ ha']
            · cases p' with
              | nil => simp at hp'
              | cons c p' => simp at hp'; subst hp'; rw [cut_append _ _ _ ha']
          rw [← e, hc] at this
          subst this
          exact ⟨rfl, List.append_cancel_left e⟩
        constructor
        · intro h
          cases hA : parseAuthority a with
          | none => rw [hA] at h; cases h
          | some uh =>
            obtain ⟨user, host⟩ := uh
            rw [hA] at h
            obtain ⟨path, hpath, rfl⟩ := (setPath_iff _ _ _).mp h
            refine ⟨[], user, host, p, path, .authority a p user host ha hp ?_ ((parseAuthority_iff _ _ _).mp hA), hpath, rfl⟩
            intro hs haa
            subst haa
            rcases hp with hp | hp
            · exact hp
            · exact absurd ⟨by simpa using hs, by simpa using hp⟩ h3
        · rintro ⟨opaq, user, host, p', path, hr, hpath, rfl⟩
          generalize hg : 47 :: 47 :: (a ++ p) = g at hr
          cases hr with
          | opaq _ _ h => subst hg; simp at h
          | relative _ _ h => subst hg; simp at h
          | rooted h h' => cases hg; simp at h'
          | slashes h hs =>
            simp only [List.cons.injEq, true_and] at hg
            exact absurd ⟨by simpa using hs, by rw [hg]; rfl⟩ h3
          | authority a' p'' _ _ ha' hp' hab hA =>
            simp only [List.cons_append, List.cons.injEq, true_and] at hg
            obtain ⟨rfl, rfl⟩ := huniq hg ha' hp'
            rw [(parseAuthority_iff _ _ _).mpr hA]
            exact (setPath_iff _ _ _).mpr ⟨path, hpath, rfl⟩
    · rw [if_neg (by
        rintro ⟨-, h⟩
        cases r with
        | nil => simp at h
        | cons c r => simp at h h2; exact h2 h), setPath_iff]
      constructor
      · rintro ⟨path, hp, rfl⟩
        exact ⟨[], none, [], _, path, .rooted r (.inr h2), hp, rfl⟩
      · rintro ⟨opaq, user, host, p, path, hr, hp, rfl⟩
        generalize hg : 47 :: r = g at hr
        cases hr with
        | opaq _ _ h => subst hg; simp at h
        | relative _ _ h => subst hg; simp at h
        | rooted h h' => cases hg; exact ⟨path, hp, rfl⟩
        | slashes => cases hg; simp at h2
        | authority a p user host ha hp' hab => cases hg; simp at h2
  · have hno : rest.take 2 ≠ [47, 47] := by
      intro h
      cases rest with
      | nil => simp at h
      | cons c r => simp at h h47; exact h47 h.1
    by_cases hs : scheme = []
    · subst hs
      rw [if_neg (fun h => h.2 rfl)]
      have hseg : (cut 47 rest).1.contains 58 = true ↔ ¬ ∀ a b, rest = a ++ 58 :: b → 47 ∈ a := by
        rw [List.contains_iff_mem]
        constructor
        · intro hm hall
          obtain ⟨a, b, e, -⟩ := List.eq_append_cons_of_mem hm
          rcases first_sep 47 rest with h | ⟨x, y, rfl, h⟩
          · rw [cut_none _ _ h] at e
            simp only at e
            exact h (by rw [e]; exact List.mem_append.mpr (.inl (hall a b e)))
          · rw [cut_append _ _ _ h] at e
            simp only at e
            subst e
            exact h (List.mem_append.mpr (.inl (hall a (b ++ 47 :: y) (by simp))))
        · intro hn
          obtain ⟨a, hn⟩ := Classical.not_forall.mp hn
          obtain ⟨b, hn⟩ := Classical.not_forall.mp hn
          obtain ⟨e, hn⟩ := Classical.not_imp.mp hn
          rcases first_sep 47 rest with h | ⟨x, y, e', h⟩
          · rw [cut_none _ _ h, e]; simp
          · rw [e', cut_append _ _ _ h]
            simp only
            rw [e] at e'
            rcases List.append_eq_append_iff.mp e' with ⟨z, h1, h2⟩ | ⟨z, h1, h2⟩
            · cases z with
              | nil => simp at h2
              | cons d z => cases h2; rw [h1]; simp
            · cases z with
              | nil => simp at h2
              | cons d z => cases h2; rw [h1] at hn; simp at hn
      by_cases hq : ∀ a b, rest = a ++ 58 :: b → 47 ∈ a
      · rw [if_neg (fun h => hseg.mp h.2 hq), if_neg (fun h => hno h.2), setPath_iff]
        constructor
        · rintro ⟨path, hp, rfl⟩
          exact ⟨[], none, [], _, path, .relative _ rfl h47 hq, hp, rfl⟩
        · rintro ⟨opaq, user, host, p, path, hr, hp, rfl⟩
          cases hr with
          | opaq _ h => cases h
          | relative => exact ⟨path, hp, rfl⟩
          | rooted | slashes | authority => exact absurd rfl h47
      · rw [if_pos ⟨h47, hseg.mpr hq⟩]
        constructor
        · intro h; cases h
        · rintro ⟨opaq, user, host, p, path, hr, hp, rfl⟩
          cases hr with
          | opaq _ h => cases h
          | relative _ _ _ h => exact absurd h hq
          | rooted | slashes | authority => exact absurd rfl h47
    · rw [if_pos ⟨h47, hs⟩, Option.some.injEq]
      constructor
      · rintro rfl
        exact ⟨rest, none, [], [], [], .opaq _ (by simpa using hs) h47, text_nil.mpr rfl, rfl⟩
      · rintro ⟨opaq, user, host, p, path, hr, hp, rfl⟩
        cases hr with
        | opaq => rw [text_nil] at hp; subst hp; rfl
        | relative _ h => simp at h; exact absurd h hs
        | rooted | slashes | authority => exact absurd rfl h47

/-! ### references -/

theorem parse_eq (raw : Bytes) : parse raw = if raw.any Tracker.isCTL then none
    else if raw = [42] then some { path := [42] }
    else match getScheme raw 0 [] raw with
      | none => none
      | some (scheme, rest) => middle { scheme := lower scheme, rawQuery := (cut 63 rest).2.1 } (cut 63 rest).1 := rfl

/-- the URL with these parts; `star` tells whether it is written `*` -/
def ofParts (star : Bool) (ps : Parts) (fragment : Bytes) : URL :=
  ⟨ps.scheme, ps.opaq, ps.user, ps.host, ps.path, if star = true ∨ ps.pathText = escapePath ps.path then [] else ps.pathText, ps.query, fragment⟩

/-- the URL reference `*` -/
def star (raw : Bytes) : Bool := (cut 35 raw).1 == [42]

theorem star_iff {raw : Bytes} (h : 35 ∉ raw) : star raw = true ↔ raw = [42] := by
  unfold star
  rw [cut_none _ _ h]
  simp

theorem cut_tail {h q query : Bytes} (hh : 63 ∉ h) (ht : UrlSpec.Tail 63 q query) : (cut 63 (h ++ q)).1 = h ∧ (cut 63 (h ++ q)).2.1 = query := by
  rcases ht with ⟨rfl, rfl⟩ | rfl
  · rw [List.append_nil, cut_none _ _ hh]; exact ⟨rfl, rfl⟩
  · rw [cut_append _ _ _ hh]; exact ⟨rfl, rfl⟩

theorem tail_cut (s : Bytes) (sep : UInt8) : ∃ h q query, s = h ++ q ∧ sep ∉ h ∧ UrlSpec.Tail sep q query ∧ (cut sep s).1 = h ∧ (cut sep s).2.1 = query := by
  rcases first_sep sep s with h | ⟨a, b, rfl, h⟩
  · exact ⟨s, [], [], by simp, h, .inl ⟨rfl, rfl⟩, by rw [cut_none _ _ h], by rw [cut_none _ _ h]⟩
  · exact ⟨a, sep :: b, b, rfl, h, .inr rfl, by rw [cut_append _ _ _ h], by rw [cut_append _ _ _ h]⟩

theorem scheme_chars {w : Bytes} (h : Scheme w) : ∀ d ∈ w, d ≠ 47 ∧ d ≠ 63 ∧ d ≠ 58 := by
  have key : ∀ d : UInt8, d ∈ ascii "ABCDEFGHIJKLMNOPQRSTUVWXYZabcdefghijklmnopqrstuvwxyz0123456789+-." → d ≠ 47 ∧ d ≠ 63 ∧ d ≠ 58 := all_bytes (by decide +kernel)
  obtain ⟨c, cs, rfl, hc, hcs⟩ := h
  intro d hd
  refine key d ?_
  rcases List.mem_cons.mp hd with rfl | hd
  · exact schemeChar_of d (.inl ((letter_iff d).mpr hc))
  · exact hcs d hd

/-- a reference without a scheme does not look like one with a scheme -/
theorem no_scheme {h q query opaq host p : Bytes} {user : Option (Bytes × Option Bytes)} (hr : Rest false h opaq user host p) (hq : UrlSpec.Tail 63 q query) :
    getScheme (h ++ q) 0 [] (h ++ q) = some ([], h ++ q) := by
  have hcolon : ∀ a b, h = a ++ 58 :: b → 47 ∈ a := by
    intro a b e
    have hslash : h.head? = some 47 → 47 ∈ a := by
      intro h47
      cases a with
      | nil => rw [e] at h47; simp at h47
      | cons c a => rw [e] at h47; simp at h47; subst h47; simp
    cases hr with
    | opaq _ h => cases h
    | relative _ _ _ h => exact h a b e
    | rooted | slashes | authority => exact hslash rfl
  rcases getScheme_cases (h ++ q) with ⟨-, h58⟩ | h1 | ⟨w, r, e, hw, -⟩
  · exfalso
    cases h with
    | nil =>
      rcases hq with ⟨rfl, -⟩ | rfl
      · simp at h58
      · simp at h58
    | cons c h =>
      simp at h58
      subst h58
      have := hcolon [] h rfl
      simp at this
  · exact h1
  · exfalso
    have hchars := scheme_chars hw
    rcases List.append_eq_append_iff.mp e with ⟨x, h1, h2⟩ | ⟨x, h1, h2⟩
    · -- h is in front of the colon
      rcases hq with ⟨rfl, -⟩ | rfl
      · have := congrArg List.length h2; simp at this
      · cases x with
        | nil => cases h2
        | cons d x =>
          cases h2
          exact (hchars 63 (by rw [h1]; simp)).2.1 rfl
    · cases x with
      | nil =>
        simp only [List.nil_append] at h2
        rcases hq with ⟨rfl, -⟩ | rfl
        · cases h2
        · cases h2
      | cons d x =>
        cases h2
        exact (hchars 47 (hcolon w x h1)).1 rfl

theorem isCTL_iff : ∀ c : UInt8, Tracker.isCTL c = true ↔ ¬ (32 ≤ c ∧ c ≠ 127) := all_bytes (by decide +kernel)

theorem anyCTL_iff (s : Bytes) : s.any Tracker.isCTL = true ↔ ¬ ∀ c ∈ s, 32 ≤ c ∧ c ≠ 127 := by
  rw [List.any_eq_true]
  constructor
  · rintro ⟨c, hc, h⟩ hall
    exact (isCTL_iff c).mp h (hall c hc)
  · intro hn
    apply Classical.byContradiction
    intro hne
    refine hn fun c hc => ?_
    apply Classical.byContradiction
    intro h
    exact hne ⟨c, hc, (isCTL_iff c).mpr h⟩

theorem parse_iff (raw : Bytes) (u : URL) (h35 : 35 ∉ raw) : parse raw = some u ↔ (∀ c ∈ raw, 32 ≤ c ∧ c ≠ 127) ∧ ∃ ps, Reference raw ps ∧ u = ofParts (star raw) ps [] := by
  rw [parse_eq]
  by_cases hctl : ∀ c ∈ raw, 32 ≤ c ∧ c ≠ 127
  · rw [if_neg (fun h => (anyCTL_iff raw).mp h hctl)]
    rw [and_iff_right hctl]
    have main : raw ≠ [42] → ( (match getScheme raw 0 [] raw with
        | none => none
        | some (scheme, rest) => middle { scheme := lower scheme, rawQuery := (cut 63 rest).2.1 } (cut 63 rest).1) = some u ↔ ∃ ps, Reference raw ps ∧ u = ofParts (star raw) ps []) := by
      intro h42
      have hns : star raw = false := by rw [Bool.eq_false_iff]; exact fun h => h42 ((star_iff h35).mp h)
      rw [hns]
      constructor
      · intro h
        rcases getScheme_cases raw with ⟨h1, -⟩ | h1 | ⟨w, r, e, hw, h1⟩
        · rw [h1] at h; cases h
        · rw [h1] at h
          simp only at h
          obtain ⟨x, q, query, e, hx, ht, c1, c2⟩ := tail_cut raw 63
          rw [c1, c2] at h
          obtain ⟨opaq, user, host, p, path, hr, hp, rfl⟩ := (middle_iff _ _ _ _).mp h
          exact ⟨_, by rw [e]; exact .relative x q opaq user host p path query hx ht hr hp, by simp [ofParts, lower]⟩
        · rw [h1] at h
          simp only at h
          obtain ⟨x, q, query, e', hx, ht, c1, c2⟩ := tail_cut r 63
          rw [c1, c2] at h
          obtain ⟨opaq, user, host, p, path, hr, hp, rfl⟩ := (middle_iff _ _ _ _).mp h
          have hne : lower w ≠ [] := by
            intro hl
            obtain ⟨c, cs, rfl, -⟩ := hw
            exact absurd (lower_nil.mp hl) (by simp)
          rw [show (lower w != []) = true by simpa using hne] at hr
          refine ⟨⟨lowerCase w, opaq, user, host, path, p, query⟩, ?_, ?_⟩
          · rw [e, e', ← List.cons_append, ← List.append_assoc]
            exact .absolute w x q opaq user host p path query hw hx ht hr hp
          · rw [lower_eq]; simp [ofParts]
      · rintro ⟨ps, hr, rfl⟩
        cases hr with
        | absolute scheme h q opaq user host p path query hw hx ht hr hp =>
          rw [List.append_assoc, List.cons_append, getScheme_scheme _ _ _ hw]
          obtain ⟨c1, c2⟩ := cut_tail hx ht
          simp only [c1, c2]
          have hne : lower scheme ≠ [] := by
            intro hl
            obtain ⟨c, cs, rfl, -⟩ := hw
            exact absurd (lower_nil.mp hl) (by simp)
          refine (middle_iff _ _ _ _).mpr ⟨opaq, user, host, p, path, ?_, hp, by rw [lower_eq]; simp [ofParts]⟩
          rwa [show (lower scheme != []) = true by simpa using hne]
        | relative h q opaq user host p path query hx ht hr hp =>
          rw [no_scheme hr ht]
          obtain ⟨c1, c2⟩ := cut_tail hx ht
          simp only [c1, c2]
          exact (middle_iff _ _ _ _).mpr ⟨opaq, user, host, p, path, hr, hp, by simp [ofParts, lower]⟩
    by_cases h42 : raw = [42]
    · subst h42
      rw [if_pos rfl]
      have href : Reference [42] ⟨[], [], none, [], [42], [42], []⟩ :=
        .relative [42] [] [] none [] [42] [42] [] (by decide) (.inl ⟨rfl, rfl⟩)
          (.relative _ rfl (by decide) (by
            intro a b e
            have : (58 : UInt8) ∈ [42] := by rw [e]; simp
            simp at this)) (.byte _ _ _ (by decide) trivial .nil)
      rw [Option.some.injEq]
      constructor
      · rintro rfl
        exact ⟨_, href, by decide +kernel⟩
      · rintro ⟨ps, hr, rfl⟩
        generalize hg : ([42] : Bytes) = g at hr
        cases hr with
        | absolute scheme h q opaq user host p path query hw =>
          obtain ⟨c, cs, rfl, hc, -⟩ := hw
          simp only [List.cons_append, List.append_assoc, List.cons.injEq] at hg
          exact absurd hg.2.symm (by simp)
        | relative h q opaq user host p path query hx ht hr hp =>
          have hq : h = [42] ∧ query = [] := by
            rcases ht with ⟨rfl, rfl⟩ | rfl
            · rw [List.append_nil] at hg; exact ⟨hg.symm, rfl⟩
            · cases h with
              | nil => cases hg
              | cons c h =>
                simp only [List.cons_append, List.cons.injEq] at hg
                exact absurd hg.2.symm (by simp)
          obtain ⟨rfl, rfl⟩ := hq
          have : opaq = [] ∧ user = none ∧ host = [] ∧ p = [42] := by
            generalize hg' : ([42] : Bytes) = g' at hr
            cases hr with
            | opaq _ h => cases h
            | relative => cases hg'; exact ⟨rfl, rfl, rfl, rfl⟩
            | rooted | slashes => cases hg'
            | authority => simp at hg'
          obtain ⟨rfl, rfl, rfl, rfl⟩ := this
          rw [Decodes.inj hp (.byte _ _ _ (by decide) trivial .nil)]
          unfold ofParts
          rw [if_pos (.inl (by rw [← hg]; decide)), ← hg]
    · rw [if_neg h42]
      exact main h42
  · rw [if_pos ((anyCTL_iff raw).mpr hctl)]
    simp [hctl]

theorem Parse_iff (raw : Bytes) (u : URL) : Parse raw = some u ↔ ∃ ps fragment, Means raw ps fragment ∧ u = ofParts (star raw) ps fragment := by
  obtain ⟨front, f, t, e, hf, ht, c1, c2⟩ := tail_cut raw 35
  have hstar : star raw = star front := by
    unfold star
    rw [c1, cut_none _ _ hf]
  unfold Parse
  rw [c1, c2, hstar]
  simp only [Option.bind_eq_bind, Option.bind_eq_some_iff, unescape_plain, parse_iff _ _ hf]
  constructor
  · rintro ⟨u', ⟨hc, ps, hr, rfl⟩, fragment, hfr, h⟩
    cases h
    exact ⟨ps, fragment, ⟨front, f, t, e, hf, hc, ht, hr, hfr⟩, rfl⟩
  · rintro ⟨ps, fragment, ⟨front', f', t', e', hf', hc, ht', hr, hfr⟩, rfl⟩
    obtain ⟨rfl, rfl⟩ : front' = front ∧ t' = t := by
      have key : ∀ {x y z : Bytes}, 35 ∉ x → UrlSpec.Tail 35 y z → (cut 35 (x ++ y)).1 = x ∧ (cut 35 (x ++ y)).2.1 = z := by
        intro x y z hx hy
        rcases hy with ⟨rfl, rfl⟩ | rfl
        · rw [List.append_nil, cut_none _ _ hx]; exact ⟨rfl, rfl⟩
        · rw [cut_append _ _ _ hx]; exact ⟨rfl, rfl⟩
      have k := key hf' ht'
      rw [← e', c1, c2] at k
      exact ⟨k.1.symm, k.2.symm⟩
    exact ⟨_, ⟨hc, ps, hr, rfl⟩, fragment, hfr, rfl⟩

end Verif.UrlParse
