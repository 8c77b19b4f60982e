import Verif.Lemmas.Redirect
import Verif.Props.UrlParse
/-
The next request of a redirection.
-/
set_option autoImplicit false

namespace Verif.Redirect
open Verif.Bencode Verif.UrlParse Verif.UrlSpec Verif.RedirectSpec Verif.Query

/-- text that can stand in a path -/
def Enc (s : Bytes) : Prop := PathChars s ∧ ∃ t, Text s t

theorem enc_nil : Enc [] := ⟨nofun, [], .nil⟩

theorem hex_not_slash (c x : UInt8) (h : hexVal c = some x) : c ≠ 47 := by
  rintro rfl
  have : hexVal 47 = none := by decide
  rw [this] at h
  cases h

theorem text_cut {a b t : Bytes} (h : Text (a ++ 47 :: b) t) : (∃ t, Text a t) ∧ ∃ t, Text b t := by
  generalize e : a ++ 47 :: b = s at h
  unfold Text at h ⊢
  induction h generalizing a with
  | nil => simp at e
  | byte c s t hc hb hs ih =>
    cases a with
    | nil =>
      simp at e
      obtain ⟨rfl, rfl⟩ := e
      exact ⟨⟨[], .nil⟩, t, hs⟩
    | cons d a =>
      simp at e
      obtain ⟨rfl, rfl⟩ := e
      obtain ⟨⟨t1, h1⟩, h2⟩ := ih rfl
      exact ⟨⟨d :: t1, .byte d a t1 hc trivial h1⟩, h2⟩
  | esc h l x y s t hx hy _ hs ih =>
    cases a with
    | nil => simp at e
    | cons d a =>
      cases a with
      | nil =>
        simp at e
        exact absurd e.2.1.symm (hex_not_slash h x hx)
      | cons d' a =>
        cases a with
        | nil =>
          simp at e
          exact absurd e.2.2.1.symm (hex_not_slash l y hy)
        | cons d'' a =>
          simp at e
          obtain ⟨rfl, rfl, rfl, rfl⟩ := e
          obtain ⟨⟨t1, h1⟩, h2⟩ := ih rfl
          exact ⟨⟨_, .esc d' d'' x y a t1 hx hy trivial h1⟩, h2⟩

theorem text_join {a b t t' : Bytes} (h : Text a t) (h' : Text b t') : Text (a ++ 47 :: b) (t ++ 47 :: t') := by
  unfold Text at h h' ⊢
  induction h with
  | nil => exact .byte 47 _ _ (by decide) trivial h'
  | byte c s t hc hb _ ih => exact .byte c _ _ hc hb ih
  | esc h l x y s t hx hy he _ ih => exact .esc h l x y _ _ hx hy he ih

theorem slash_char : (47 : UInt8) ∈ ascii "ABCDEFGHIJKLMNOPQRSTUVWXYZabcdefghijklmnopqrstuvwxyz0123456789-._~!$&'()*+,;=:@[]%/" := (pathByte_iff 47).mp (by decide +kernel)

theorem enc_slash {a b : Bytes} : Enc (a ++ 47 :: b) ↔ Enc a ∧ Enc b := by
  constructor
  · rintro ⟨h1, t, h2⟩
    obtain ⟨h3, h4⟩ := text_cut h2
    exact ⟨⟨fun c hc => h1 c (by simp [hc]), h3⟩, ⟨fun c hc => h1 c (by simp [hc]), h4⟩⟩
  · rintro ⟨⟨h1, t, h2⟩, h3, t', h4⟩
    refine ⟨fun c hc => ?_, _, text_join h2 h4⟩
    rcases List.mem_append.mp hc with hc | hc
    · exact h1 c hc
    · rcases List.mem_cons.mp hc with rfl | hc
      · exact slash_char
      · exact h3 c hc

theorem enc_cons {b : Bytes} : Enc (47 :: b) ↔ Enc b := by
  have := enc_slash (a := []) (b := b)
  simpa [enc_nil] using this

/-- what is written begins with a slash and can stand in a path -/
def Dst (dst : Bytes) : Prop := ∃ x, dst = 47 :: x ∧ Enc x

theorem pathStep_dst (first : Bool) (dst elem : Bytes) (h : Dst dst) (he : Enc elem) (hf : first = true → dst = [47]) :
    Dst (pathStep first dst elem).2 ∧ ((pathStep first dst elem).1 = true → (pathStep first dst elem).2 = [47]) := by
  obtain ⟨x, rfl, hx⟩ := h
  unfold pathStep
  split
  · exact ⟨⟨x, rfl, hx⟩, by simp⟩
  · split
    · rw [List.drop_one, List.tail_cons]
      rcases last_sep 47 x with h | ⟨a, b, rfl, h⟩
      · rw [lastIndex_none 47 x h]
        exact ⟨⟨[], rfl, enc_nil⟩, fun _ => rfl⟩
      · rw [lastIndex_append 47 a b h]
        simp only [List.take_left']
        refine ⟨⟨a, rfl, (enc_slash.mp hx).1⟩, fun e => ?_⟩
        have := hf e
        simp at this
    · refine ⟨?_, by simp⟩
      cases first with
      | true =>
        have := hf rfl
        simp at this
        subst this
        exact ⟨elem, by simp, he⟩
      | false => exact ⟨x ++ 47 :: elem, by simp, enc_slash.mpr ⟨hx, he⟩⟩

theorem pathLoop_dst : ∀ (n : Nat) (first : Bool) (dst rem : Bytes), Dst dst → Enc rem → (first = true → dst = [47]) → Dst (pathLoop n first dst rem).2 := by
  intro n
  induction n with
  | zero => intro first dst rem h _ _; exact h
  | succ n ih =>
    intro first dst rem h hr hf
    rw [pathLoop]
    rcases first_sep 47 rem with h47 | ⟨e, rem', rfl, h47⟩
    · rw [cut_none 47 rem h47]
      simp only [Bool.false_eq_true, if_false]
      exact (pathStep_dst first dst rem h hr hf).1
    · rw [cut_append 47 e rem' h47]
      simp only [if_true]
      have := pathStep_dst first dst e h (enc_slash.mp hr).1 hf
      exact ih _ _ _ this.1 (enc_slash.mp hr).2 this.2

theorem clean_enc (full : Bytes) (h : Enc full) (hne : full ≠ []) : Enc (cleanPath full) ∧ (cleanPath full).head? = some 47 := by
  rw [clean_eq full hne]
  have h0 := pathLoop_dst (full.length + 1) true [47] full ⟨[], rfl, enc_nil⟩ h (fun _ => rfl)
  generalize pathLoop (full.length + 1) true [47] full = r at h0 ⊢
  have h1 : Dst (if r.1 = [46] ∨ r.1 = [46, 46] then r.2 ++ [47] else r.2) := by
    split
    · obtain ⟨x, e, hx⟩ := h0
      exact ⟨x ++ [47], by rw [e]; simp, enc_slash.mpr ⟨hx, enc_nil⟩⟩
    · exact h0
  generalize (if r.1 = [46] ∨ r.1 = [46, 46] then r.2 ++ [47] else r.2) = d at h1 ⊢
  obtain ⟨x, rfl, hx⟩ := h1
  unfold fin
  split
  · rename_i hc
    rw [List.drop_one, List.tail_cons]
    refine ⟨hx, ?_⟩
    have := hc.2
    simp at this
    cases x with
    | nil => simp at this
    | cons c x => simpa using this
  · exact ⟨enc_cons.mpr hx, rfl⟩

/-- the path that dots are removed from -/
theorem full_merged (base ref : Bytes) (hb : base = [] ∨ base.head? = some 47) :
    ∃ m, Merged base ref m ∧ (m = fullPath base ref ∨ m = 47 :: fullPath base ref ∧ fullPath base ref ≠ [] ∧ base = [] ∧ fullPath base ref = ref) ∧ (m = [] ∨ m.head? = some 47) := by
  unfold fullPath
  by_cases h0 : ref = []
  · rw [if_pos h0]
    exact ⟨base, .inl ⟨h0, rfl⟩, .inl rfl, hb⟩
  · rw [if_neg h0]
    by_cases h1 : ref.head? = some 47
    · rw [if_neg (not_not_intro h1)]
      exact ⟨ref, .inr (.inl ⟨h1, rfl⟩), .inl rfl, .inr h1⟩
    · rw [if_pos h1]
      rcases last_sep 47 base with h | ⟨a, b, rfl, h⟩
      · have : base = [] := by
          rcases hb with hb | hb
          · exact hb
          · cases base with
            | nil => rfl
            | cons c base => simp at hb; exact absurd (by simp [hb]) h
        subst this
        rw [lastIndex_none 47 [] h]
        exact ⟨47 :: ref, .inr (.inr ⟨h0, h1, .inl ⟨rfl, rfl⟩⟩), .inr ⟨rfl, by simpa using h0, rfl, rfl⟩, .inr rfl⟩
      · rw [lastIndex_append 47 a b h]
        have e : (a ++ 47 :: b).take (a.length + 1) = a ++ [47] := by
          rw [List.take_append, List.take_of_length_le (by omega)]
          simp
        refine ⟨a ++ 47 :: ref, .inr (.inr ⟨h0, h1, .inr ⟨a, b, rfl, h, rfl⟩⟩), .inl (by simp only [e]; simp), .inr ?_⟩
        cases a with
        | nil => rfl
        | cons c a => simpa using hb

theorem merged_unique {base ref m m' : Bytes} (h : Merged base ref m) (h' : Merged base ref m') : m = m' := by
  rcases h with ⟨h1, h2⟩ | ⟨h1, h2⟩ | ⟨h1, h2, h3⟩
  · rcases h' with ⟨k1, k2⟩ | ⟨k1, k2⟩ | ⟨k1, k2, k3⟩
    · rw [h2, k2]
    · rw [h1] at k1; simp at k1
    · exact absurd h1 k1
  · rcases h' with ⟨k1, k2⟩ | ⟨k1, k2⟩ | ⟨k1, k2, k3⟩
    · rw [k1] at h1; simp at h1
    · rw [h2, k2]
    · exact absurd h1 k2
  · rcases h' with ⟨k1, k2⟩ | ⟨k1, k2⟩ | ⟨k1, k2, k3⟩
    · exact absurd k1 h1
    · exact absurd k1 h2
    · rcases h3 with ⟨e, h3⟩ | ⟨a, b, e, hb, h3⟩ <;> rcases k3 with ⟨e', k3⟩ | ⟨a', b', e', hb', k3⟩
      · rw [h3, k3]
      · rw [e] at e'; simp at e'
      · rw [e] at e'; simp at e'
      · obtain ⟨rfl, -⟩ := last_unique (e.symm.trans e') hb hb'
        rw [h3, k3]

/-- `resolvePath` -/
theorem resolve (base ref : Bytes) (hb : base = [] ∨ base.head? = some 47) (h1 : Enc base) (h2 : Enc ref) :
    Enc (resolvePath base ref) ∧ Resolved base ref (if resolvePath base ref = [] then [47] else resolvePath base ref) ∧
      (resolvePath base ref = [] ∨ (resolvePath base ref).head? = some 47) := by
  obtain ⟨m, hm, hf, hr⟩ := full_merged base ref hb
  have hfull : Enc (fullPath base ref) := by
    unfold fullPath
    split
    · exact h1
    · split
      · rcases last_sep 47 base with h | ⟨a, b, rfl, h⟩
        · rw [lastIndex_none 47 _ h]; exact h2
        · rw [lastIndex_append 47 a b h]
          have e : (a ++ 47 :: b).take (a.length + 1) = a ++ [47] := by
            rw [List.take_append, List.take_of_length_le (by omega)]
            simp
          simp only [e, List.append_assoc, List.singleton_append]
          exact enc_slash.mpr ⟨(enc_slash.mp h1).1, h2⟩
      · exact h2
  unfold resolvePath
  by_cases h0 : fullPath base ref = []
  · have hm0 : m = [] := by
      rcases hf with hf | ⟨-, hf, -⟩
      · rw [hf, h0]
      · exact absurd h0 hf
    rw [h0]
    exact ⟨enc_nil, ⟨m, hm, .inl ⟨hm0, rfl⟩⟩, .inl rfl⟩
  · obtain ⟨k1, k2⟩ := clean_enc _ hfull h0
    have hne : cleanPath (fullPath base ref) ≠ [] := by intro e; rw [e] at k2; simp at k2
    rw [if_neg hne]
    refine ⟨k1, ⟨m, hm, .inr ⟨?_, k2, fun hs => ?_, ?_⟩⟩, .inr k2⟩
    · rintro rfl
      rcases hf with hf | ⟨hf, -⟩
      · exact h0 hf.symm
      · cases hf
    · rcases hf with hf | ⟨hf, hf1, hf2⟩
      · rcases hr with hr | hr
        · rw [hr] at hf; exact absurd hf.symm h0
        · rw [← hf]
          cases m with
          | nil => simp at hr
          | cons c p =>
            simp at hr
            subst hr
            exact clean_rooted p hs
      · rw [hf] at hs ⊢
        exact clean_unrooted _ hf1 hs
    · rw [clean_walked _ h0]
      rcases hf with hf | ⟨hf, hf1, hf2, hf3⟩
      · exact .inl (by rw [hf])
      · exact .inr ⟨.inl hf2, by rw [hf, hf3], by rw [hf3]⟩

/-! ### places -/

theorem means_text {raw : Bytes} {ps : Parts} {f : Bytes} (h : Means raw ps f) : Text ps.pathText ps.path := by
  obtain ⟨u, r, t, rfl, -, -, -, hr, -⟩ := h
  cases hr with
  | absolute _ _ _ _ _ _ _ _ _ _ _ _ _ h => exact h
  | relative _ _ _ _ _ _ _ _ _ _ _ h => exact h

theorem means_opaq {raw : Bytes} {ps : Parts} {f : Bytes} (h : Means raw ps f) (hs : ps.scheme = []) : ps.opaq = [] := by
  obtain ⟨u, r, t, rfl, -, -, -, hr, -⟩ := h
  cases hr with
  | absolute scheme _ _ _ _ _ _ _ _ hw _ _ _ _ =>
    obtain ⟨c, cs, rfl, -⟩ := hw
    simp [lowerCase] at hs
  | relative _ _ _ _ _ _ _ _ _ _ hr _ =>
    cases hr with
    | opaq _ h => cases h
    | relative | rooted | slashes | authority => rfl

theorem means_query {raw : Bytes} {ps : Parts} {f : Bytes} (h : Means raw ps f) : ∀ c ∈ ps.query, Tracker.isCTL c = false := by
  obtain ⟨u, r, t, rfl, -, hu, -, hr, -⟩ := h
  have key : ∀ (q query : Bytes), Tail 63 q query → (∀ c ∈ q, c ∈ u) → ∀ c ∈ query, Tracker.isCTL c = false := by
    intro q query hq hsub c hc
    rw [Bool.eq_false_iff]
    intro hctl
    refine (isCTL_iff c).mp hctl (hu c ?_)
    rcases hq with ⟨-, rfl⟩ | rfl
    · cases hc
    · exact hsub c (by simp [hc])
  cases hr with
  | absolute _ _ q _ _ _ _ _ query _ _ hq => exact key q query hq (fun c hc => by simp [hc])
  | relative _ q _ _ _ _ _ query _ hq => exact key q query hq (fun c hc => by simp [hc])

theorem star_path {raw : Bytes} {ps : Parts} {f : Bytes} (h : Means raw ps f) (hs : star raw = true) : ps.path = [42] := by
  have h1 := Means.parse h
  unfold Parse at h1
  unfold star at hs
  rw [eq_of_beq hs] at h1
  have e : parse [42] = some { path := [42] } := by decide
  rw [e] at h1
  cases hu : unescape .plain (cut 35 raw).2.1 with
  | none => rw [hu] at h1; cases h1
  | some t =>
    rw [hu] at h1
    have := congrArg (Option.map URL.path) h1
    simp only [Option.bind_eq_bind, Option.bind_some, Option.map_some, Option.some.injEq] at this
    exact this.symm

theorem escapePath_slash (s : Bytes) (h : s = [] ∨ s.head? = some 47) : escapePath s = [] ∨ (escapePath s).head? = some 47 := by
  rcases h with rfl | h
  · exact .inl rfl
  · cases s with
    | nil => simp at h
    | cons c s =>
      simp at h
      subst h
      exact .inr rfl

/-- the path of a reference -/
theorem escaped {raw : Bytes} {ps : Parts} {f : Bytes} (h : Means raw ps f) :
    Written ps (ofParts (star raw) ps f).EscapedPath ∧
      ((ps.pathText = [] ∨ ps.pathText.head? = some 47) → ((ofParts (star raw) ps f).EscapedPath = [] ∨ (ofParts (star raw) ps f).EscapedPath.head? = some 47)) := by
  have ht := means_text h
  have hs := star_path h
  unfold URL.EscapedPath ofParts Written
  simp only
  by_cases h42 : ps.path = [42]
  · by_cases hc : (if star raw = true ∨ ps.pathText = escapePath ps.path then [] else ps.pathText) ≠ [] ∧
        validEncoded (if star raw = true ∨ ps.pathText = escapePath ps.path then [] else ps.pathText) = true ∧
        unescape .plain (if star raw = true ∨ ps.pathText = escapePath ps.path then [] else ps.pathText) = some ps.path
    · rw [if_pos hc]
      refine ⟨⟨(validEncoded_iff _).mp hc.2.1, (unescape_plain _ _).mp hc.2.2, fun _ hn => absurd h42 hn⟩, fun hp => ?_⟩
      split
      · exact .inl rfl
      · exact hp
    · rw [if_neg hc, if_pos h42]
      refine ⟨⟨(validEncoded_iff [42]).mp (by decide +kernel), by rw [h42]; exact .byte 42 [] [] (by decide) trivial .nil, fun _ hn => absurd h42 hn⟩, fun hp => ?_⟩
      rcases text_head ht hp with ⟨e, -⟩ | e
      · rw [e] at h42; cases h42
      · rw [h42] at e; simp at e
  · have hst : ¬ star raw = true := fun e => h42 (hs e)
    have hif : (if star raw = true ∨ ps.pathText = escapePath ps.path then [] else ps.pathText) = (if ps.pathText = escapePath ps.path then [] else ps.pathText) := by
      by_cases he : ps.pathText = escapePath ps.path
      · rw [if_pos (.inr he), if_pos he]
      · rw [if_neg (fun h => h.elim hst he), if_neg he]
    rw [hif]
    by_cases he : ps.pathText = escapePath ps.path
    · rw [if_pos he, if_neg (fun h => h.1 rfl), if_neg h42]
      exact ⟨⟨escapePath_chars _, escapePath_text _, fun _ _ => he.symm⟩, fun hp => by rw [← he]; exact hp⟩
    · rw [if_neg he]
      have hne : ps.pathText ≠ [] := by
        intro e
        rw [e, text_nil] at ht
        exact he (by rw [e, ht]; rfl)
      by_cases hv : PathChars ps.pathText
      · rw [if_pos ⟨hne, (validEncoded_iff _).mpr hv, (unescape_plain _ _).mpr ht⟩]
        exact ⟨⟨hv, ht, fun _ _ => rfl⟩, fun hp => hp⟩
      · rw [if_neg (fun h => hv ((validEncoded_iff _).mp h.2.1)), if_neg h42]
        refine ⟨⟨escapePath_chars _, escapePath_text _, fun h => absurd h hv⟩, fun hp => ?_⟩
        apply escapePath_slash
        rcases text_head ht hp with ⟨e, -⟩ | e
        · exact .inl e
        · exact .inr e

/-- setting a path that can be set -/
theorem withPath_eq (u : URL) (p : Bytes) (h : Enc p) (hp : p = [] ∨ p.head? = some 47) :
    ∃ path raw, withPath u p = { u with path := path, rawPath := raw } ∧ (withPath u p).EscapedPath = p := by
  obtain ⟨hc, t, ht⟩ := h
  have e : withPath u p = { u with path := t, rawPath := if p = escapePath t then [] else p } := by
    unfold withPath setPath
    rw [(unescape_plain p t).mpr ht]
    rfl
  refine ⟨_, _, e, ?_⟩
  rw [e]
  unfold URL.EscapedPath
  simp only
  have h42 : t ≠ [42] := by
    intro e
    rcases text_head ht hp with ⟨e', -⟩ | e'
    · rw [e'] at e; cases e
    · rw [e] at e'; simp at e'
  by_cases he : p = escapePath t
  · rw [if_pos he, if_neg (fun h => h.1 rfl), if_neg h42]
    exact he.symm
  · rw [if_neg he]
    have hne : p ≠ [] := by
      intro e
      rw [e, text_nil] at ht
      exact he (by rw [e, ht]; rfl)
    rw [if_pos ⟨hne, (validEncoded_iff _).mpr hc, (unescape_plain _ _).mpr ht⟩]

/-- a place with a host -/
structure Ok (p : Place) : Prop where
  opaq : p.url.opaq = []
  enc : Enc p.url.EscapedPath
  rooted : p.url.EscapedPath = [] ∨ p.url.EscapedPath.head? = some 47
  query : ∀ c ∈ p.url.rawQuery, Tracker.isCTL c = false

/-- the query with its question mark -/
def Place.tail (p : Place) : Bytes := if p.url.rawQuery ≠ [] then 63 :: p.url.rawQuery else if p.force = true then [63] else []

theorem target_eq {p : Place} (h : Ok p) : p.target = (if p.url.EscapedPath = [] then [47] else p.url.EscapedPath) ++ p.tail := by
  unfold Place.target URL.RequestURI Place.tail
  rw [if_pos h.opaq]
  by_cases hq : p.url.rawQuery = []
  · simp [hq]
  · simp [hq]

theorem pathChars_ctl : ∀ c ∈ ascii "ABCDEFGHIJKLMNOPQRSTUVWXYZabcdefghijklmnopqrstuvwxyz0123456789-._~!$&'()*+,;=:@[]%/", Tracker.isCTL c = false ∧ c ≠ 63 := by
  have key : ∀ c : UInt8, ((ascii "!$&'()*+,;=:@[]%").contains c || pathByte c) = true → Tracker.isCTL c = false ∧ c ≠ 63 := all_bytes (by decide +kernel)
  exact fun c hc => key c ((pathByte_iff c).mpr hc)

theorem target_ctl {p : Place} (h : Ok p) : p.target.any Tracker.isCTL = false := by
  rw [target_eq h, List.any_eq_false]
  intro c hc
  rw [Bool.not_eq_true]
  rcases List.mem_append.mp hc with hc | hc
  · split at hc
    · simp at hc; subst hc; decide
    · exact (pathChars_ctl c (h.enc.1 c hc)).1
  · unfold Place.tail at hc
    split at hc
    · rcases List.mem_cons.mp hc with rfl | hc
      · decide
      · exact h.query c hc
    · split at hc
      · simp at hc; subst hc; decide
      · cases hc

theorem check_eq {p : Place} (h : Ok p) (hop : Hop) : p.check = some hop ↔
    (p.url.scheme = ascii "http" ∨ p.url.scheme = ascii "https") ∧ p.url.host ≠ [] ∧ hop = ⟨p.url.scheme = ascii "https", p.url.host, p.target⟩ := by
  unfold Place.check
  rw [target_ctl h]
  by_cases h1 : p.url.scheme = ascii "http" ∨ p.url.scheme = ascii "https"
  · rw [if_neg (not_not_intro h1)]
    by_cases h2 : p.url.host = []
    · rw [if_pos h2]
      exact ⟨nofun, fun h => absurd h2 h.2.1⟩
    · rw [if_neg h2, if_neg (by simp), Option.some.injEq]
      exact ⟨fun e => ⟨h1, h2, e.symm⟩, fun h => h.2.2.symm⟩
  · rw [if_pos h1]
    exact ⟨nofun, fun h => absurd h.1 h1⟩

theorem check_host {p : Place} {hop : Hop} (h : p.check = some hop) : (p.url.scheme = ascii "http" ∨ p.url.scheme = ascii "https") ∧ p.url.host ≠ [] := by
  unfold Place.check at h
  split at h
  · cases h
  · rename_i h1
    split at h
    · cases h
    · rename_i h2
      exact ⟨Decidable.not_not.mp h1, h2⟩

theorem forced_iff (loc : Bytes) : forced loc = true ↔ Mark loc := by
  obtain ⟨a, q, t, rfl, h35, ht, e1, -⟩ := tail_cut loc 35
  unfold forced
  simp only [e1, Bool.and_eq_true, decide_eq_true_eq]
  constructor
  · rintro ⟨h1, h2⟩
    obtain ⟨init, rfl⟩ := List.getLast?_eq_some_iff.mp h1
    refine ⟨init, q, by simp, fun h => h35 (by simp [h]), ?_, ?_⟩
    · rw [List.count_append] at h2
      simp at h2
      exact List.count_eq_zero.mp (by simpa using h2)
    · rcases ht with ⟨rfl, -⟩ | rfl
      · exact .inl rfl
      · exact .inr rfl
  · rintro ⟨b, f, e, hb35, hb63, hf⟩
    have : a = b ++ [63] := by
      have hq : q = [] ∨ q.head? = some 35 := by
        rcases ht with ⟨rfl, -⟩ | rfl
        · exact .inl rfl
        · exact .inr rfl
      have e' : a ++ q = (b ++ [63]) ++ f := by rw [e]; simp
      have hb : 35 ∉ b ++ [63] := by simp [hb35]
      have c1 : (cut 35 (a ++ q)).1 = a := e1
      have c2 : (cut 35 ((b ++ [63]) ++ f)).1 = b ++ [63] := by
        rcases hf with rfl | hf
        · rw [List.append_nil, cut_none _ _ hb]
        · cases f with
          | nil => simp at hf
          | cons c f =>
            simp at hf
            subst hf
            rw [cut_append _ _ _ hb]
      rw [← c1, e', c2]
    subst this
    refine ⟨by simp, ?_⟩
    rw [List.count_append, List.count_eq_zero.mpr hb63]
    rfl

theorem suffix_tail (loc : Bytes) (q : URL) : Suffix loc q.rawQuery (Place.tail ⟨q, forced loc⟩) := by
  unfold Suffix Place.tail
  simp only
  by_cases h : q.rawQuery = []
  · rw [if_neg (not_not_intro h)]
    refine .inr ⟨h, ?_⟩
    by_cases hm : Mark loc
    · rw [if_pos ((forced_iff loc).mpr hm)]; exact .inl ⟨hm, rfl⟩
    · rw [if_neg (fun e => hm ((forced_iff loc).mp e))]; exact .inr ⟨hm, rfl⟩
  · rw [if_pos h]
    exact .inl ⟨h, rfl⟩

/-- the target cut at the question mark -/
theorem target_cut {p : Place} (h : Ok p) : ∃ b q, p.target = b ++ q ∧ 63 ∉ b ∧ (q = [] ∨ q.head? = some 63) ∧ b = (if p.url.EscapedPath = [] then [47] else p.url.EscapedPath) ∧
    q.drop 1 = p.url.rawQuery := by
  refine ⟨_, _, target_eq h, ?_, ?_, rfl, ?_⟩
  · intro h63
    split at h63
    · simp at h63
    · exact (pathChars_ctl 63 (h.enc.1 63 h63)).2 rfl
  · unfold Place.tail
    split
    · exact .inr rfl
    · split
      · exact .inr rfl
      · exact .inl rfl
  · unfold Place.tail
    split
    · rfl
    · rename_i hq
      rw [Decidable.not_not.mp hq]
      split <;> rfl

theorem resolved_base {E r t : Bytes} (h : Resolved E r t) : Resolved (if E = [] then [47] else E) r t := by
  by_cases hE : E = []
  · subst hE
    rw [if_pos rfl]
    obtain ⟨m, hm, h⟩ := h
    rcases hm with ⟨h1, h2⟩ | ⟨h1, h2⟩ | ⟨h1, h2, h3⟩
    · subst h2
      rcases h with ⟨-, rfl⟩ | ⟨h, -⟩
      · exact ⟨[47], .inl ⟨h1, rfl⟩, .inr ⟨by simp, rfl, fun _ => dots_slash [], .inl (by decide)⟩⟩
      · exact absurd rfl h
    · exact ⟨m, .inr (.inl ⟨h1, h2⟩), h.imp_right fun ⟨k1, k2, k3, k4⟩ => ⟨k1, k2, k3, k4.imp_right fun ⟨_, k5⟩ => ⟨.inr rfl, k5⟩⟩⟩
    · rcases h3 with ⟨-, h3⟩ | ⟨a, b, h3, -⟩
      · exact ⟨m, .inr (.inr ⟨h1, h2, .inr ⟨[], [], rfl, by simp, h3⟩⟩), h.imp_right fun ⟨k1, k2, k3, k4⟩ => ⟨k1, k2, k3, k4.imp_right fun ⟨_, k5⟩ => ⟨.inr rfl, k5⟩⟩⟩
      · simp at h3
  · rw [if_neg hE]
    exact h

theorem resolved_swap {r t : Bytes} (hr : r = [] ∨ r.head? = some 47) (h : Resolved r [] t) : Resolved [] r t := by
  obtain ⟨m, hm, h⟩ := h
  have e : m = r := by
    rcases hm with ⟨-, e⟩ | ⟨e, -⟩ | ⟨e, -⟩
    · exact e
    · simp at e
    · exact absurd rfl e
  subst e
  have h : m = [] ∧ t = [47] ∨ m ≠ [] ∧ t.head? = some 47 ∧ (¬ [47, 47] <:+: m → Dots m [] t) ∧ (t = walked m ∨ (([] : Bytes) = [] ∨ ([] : Bytes) = [47]) ∧ m = 47 :: m ∧ t = walked m) := by
    refine h.imp_right fun ⟨k1, k2, k3, k4⟩ => ⟨k1, k2, k3, .inl ?_⟩
    rcases k4 with k4 | ⟨-, rfl, k4⟩
    · exact k4
    · rw [k4]; decide
  rcases hr with rfl | hr
  · exact ⟨[], .inl ⟨rfl, rfl⟩, h⟩
  · exact ⟨m, .inr (.inl ⟨hr, rfl⟩), h⟩

/-- a reference without a host -/
theorem resolve_here (u ref : URL) (h1 : ref.scheme = []) (h2 : ref.host = []) (h3 : ref.user = none) (h4 : ref.opaq = []) :
    ∃ u0 : URL, ResolveReference u ref = withPath u0 (resolvePath u.EscapedPath ref.EscapedPath) ∧
        u0.scheme = u.scheme ∧ u0.opaq = [] ∧ u0.host = u.host ∧ u0.rawQuery = if ref.path = [] ∧ ref.rawQuery = [] then u.rawQuery else ref.rawQuery := by
  unfold ResolveReference
  rw [if_neg (by simp [h1, h2, h3]), if_neg (by simp [h4])]
  refine ⟨_, rfl, ?_, ?_, rfl, ?_⟩
  · by_cases hx : ref.path = [] ∧ ref.rawQuery = []
    · simp only [if_pos hx]; rw [if_pos h1]
    · simp only [if_neg hx]; rw [if_pos h1]
  · by_cases hx : ref.path = [] ∧ ref.rawQuery = []
    · simp only [if_pos hx]; exact h4
    · simp only [if_neg hx]; exact h4
  · by_cases hx : ref.path = [] ∧ ref.rawQuery = []
    · simp only [if_pos hx]
    · simp only [if_neg hx]

/-- the next request -/
theorem next_spec {p q : Place} {hop hop' : Hop} {loc : Bytes} (hp : Ok p) (hc : p.check = some hop) (hn : p.next loc = some q) (hq : q.check = some hop') :
    Ok q ∧ Next hop.tls hop.host hop.target loc hop'.tls hop'.host hop'.target := by
  unfold Place.next at hn
  obtain ⟨ref, hr, rfl⟩ := Option.map_eq_some_iff.mp hn
  obtain ⟨ps, f, hm, rfl⟩ := (Parse_iff loc ref).mp hr
  obtain ⟨hw, hwr⟩ := escaped hm
  have hwe : Enc (ofParts (star loc) ps f).EscapedPath := ⟨hw.1, _, hw.2.1⟩
  obtain ⟨hs, hh⟩ := check_host hq
  obtain ⟨ps1, ps2, rfl⟩ := (check_eq hp hop).mp hc
  by_cases hel : ps.scheme ≠ [] ∨ ps.host ≠ [] ∨ ps.user ≠ none
  · -- another host
    have e : ResolveReference p.url (ofParts (star loc) ps f) = withPath { ofParts (star loc) ps f with scheme := if ps.scheme = [] then p.url.scheme else ps.scheme }
        (resolvePath (ofParts (star loc) ps f).EscapedPath []) := by
      unfold ResolveReference
      exact if_pos hel
    rw [e] at hs hh hq ⊢
    clear hn hr e
    have hw' : ∀ (u : URL) (x : Bytes), (withPath u x).host = u.host := by
      intro u x
      unfold withPath setPath
      cases unescape .plain x <;> rfl
    rw [hw'] at hh
    have hhost : ps.host ≠ [] := hh
    obtain ⟨k1, k2, k3, k4⟩ := host_path hm hhost
    have hr47 := hwr k3
    obtain ⟨r1, r2, r3⟩ := resolve _ [] hr47 hwe enc_nil
    obtain ⟨path, raw, e1, e2⟩ := withPath_eq { ofParts (star loc) ps f with scheme := if ps.scheme = [] then p.url.scheme else ps.scheme } _ r1 r3
    have hok : Ok ⟨withPath { ofParts (star loc) ps f with scheme := if ps.scheme = [] then p.url.scheme else ps.scheme }
        (resolvePath (ofParts (star loc) ps f).EscapedPath []), forced loc⟩ := by
      refine ⟨by rw [e1]; exact k1, by rw [e2]; exact r1, by rw [e2]; exact r3, ?_⟩
      rw [e1]
      exact means_query hm
    refine ⟨hok, ?_⟩
    obtain ⟨-, -, rfl⟩ := (check_eq hok hop').mp hq
    refine ⟨ps, f, _, _, _, hm, hw, target_eq hok, .inl ⟨hel, hhost, by rw [e1]; rfl, ?_, ?_, ?_⟩⟩
    · rw [e1] at hs ⊢
      simp only at hs ⊢
      by_cases hsc : ps.scheme = []
      · rw [if_pos hsc]; exact .inl ⟨hsc, rfl⟩
      · rw [if_neg hsc] at hs ⊢
        rcases hs with hs | hs
        · exact .inr (.inl ⟨hs, decide_eq_false fun e => absurd (hs.symm.trans e) (by decide)⟩)
        · exact .inr (.inr ⟨hs, by simp [hs]⟩)
    · rw [e2]
      exact resolved_swap hr47 r2
    · have := suffix_tail loc (withPath { ofParts (star loc) ps f with scheme := if ps.scheme = [] then p.url.scheme else ps.scheme }
        (resolvePath (ofParts (star loc) ps f).EscapedPath []))
      rw [show (withPath { ofParts (star loc) ps f with scheme := if ps.scheme = [] then p.url.scheme else ps.scheme }
        (resolvePath (ofParts (star loc) ps f).EscapedPath [])).rawQuery = ps.query by rw [e1]; rfl] at this
      exact this
  · -- the same host
    have hsc : ps.scheme = [] := Decidable.byContradiction fun h => hel (.inl h)
    have hho : ps.host = [] := Decidable.byContradiction fun h => hel (.inr (.inl h))
    have hus : ps.user = none := Decidable.byContradiction fun h => hel (.inr (.inr h))
    have hop0 : ps.opaq = [] := means_opaq hm hsc
    obtain ⟨r1, r2, r3⟩ := resolve _ _ hp.rooted hp.enc hwe
    have e : ∃ u0 : URL, ResolveReference p.url (ofParts (star loc) ps f) = withPath u0 (resolvePath p.url.EscapedPath (ofParts (star loc) ps f).EscapedPath) ∧
        u0.scheme = p.url.scheme ∧ u0.opaq = [] ∧ u0.host = p.url.host ∧ u0.rawQuery = if ps.path = [] ∧ ps.query = [] then p.url.rawQuery else ps.query := by
      exact resolve_here p.url (ofParts (star loc) ps f) hsc hho hus hop0
    obtain ⟨u0, e, f1, f2, f3, f4⟩ := e
    rw [e] at hs hh hq ⊢
    obtain ⟨path, raw, e1, e2⟩ := withPath_eq u0 _ r1 r3
    have hok : Ok ⟨withPath u0 (resolvePath p.url.EscapedPath (ofParts (star loc) ps f).EscapedPath), forced loc⟩ := by
      refine ⟨by rw [e1]; exact f2, by rw [e2]; exact r1, by rw [e2]; exact r3, ?_⟩
      rw [e1]
      show ∀ c ∈ u0.rawQuery, _
      rw [f4]
      split
      · exact hp.query
      · exact means_query hm
    refine ⟨hok, ?_⟩
    obtain ⟨-, -, rfl⟩ := (check_eq hok hop').mp hq
    obtain ⟨b, q, t1, t2, t3, t4, t5⟩ := target_cut hp
    refine ⟨ps, f, _, _, _, hm, hw, target_eq hok, .inr ⟨hsc, hho, hus, by rw [e1]; exact f3, ?_, b, q, t1, t2, t3, ?_, ?_⟩⟩
    · rw [e1]; simp only [f1]
    · rw [e2, t4]
      exact resolved_base r2
    · have := suffix_tail loc (withPath u0 (resolvePath p.url.EscapedPath (ofParts (star loc) ps f).EscapedPath))
      rw [show (withPath u0 (resolvePath p.url.EscapedPath (ofParts (star loc) ps f).EscapedPath)).rawQuery = u0.rawQuery by rw [e1], f4] at this
      rw [t5]
      exact this

end Verif.Redirect
