import Verif.Lemmas.RedirectNext
/-
C124: redirections of the tracker.
-/
set_option autoImplicit false

namespace Verif.Redirect
open Verif.Bencode Verif.UrlParse Verif.UrlSpec Verif.RedirectSpec Verif.Query

/-- the status codes that redirect a GET request -/
def Redirecting (status : Nat) : Prop := status = 301 ∨ status = 302 ∨ status = 303 ∨ status = 307 ∨ status = 308

/-- an answer that ends the chain: it does not redirect, or (307, 308) does not say where to -/
def Final (a : Answer) : Prop := ¬ Redirecting a.status ∨ (a.status = 307 ∨ a.status = 308) ∧ a.location = []

theorem follows_iff (a : Answer) : follows a = false ↔ Final a := by
  unfold follows Final Redirecting
  by_cases h : a.location = []
  · simp [h]; omega
  · simp [h]; omega

theorem next_none {p : Place} {loc : Bytes} (h : p.next loc = none) (hop : Hop) (tls : Bool) (host target : Bytes) : ¬ Next hop.tls hop.host hop.target loc tls host target := by
  rintro ⟨ps, f, r, t, s, hm, -⟩
  unfold Place.next at h
  rw [Means.parse hm] at h
  cases h

/-- a redirection that leads nowhere -/
theorem next_stop {p q : Place} {hop : Hop} {loc : Bytes} (hp : Ok p) (hc : p.check = some hop) (hn : p.next loc = some q) (hq : q.check = none) (tls : Bool) (host target : Bytes) :
    ¬ Next hop.tls hop.host hop.target loc tls host target := by
  rintro ⟨ps, f, r, t, s, hm, -, -, h⟩
  unfold Place.next at hn
  rw [Means.parse hm] at hn
  cases hn
  obtain ⟨ps1, ps2, rfl⟩ := (check_eq hp hop).mp hc
  obtain ⟨hw, hwr⟩ := escaped hm
  have hwe : Enc (ofParts (star loc) ps f).EscapedPath := ⟨hw.1, _, hw.2.1⟩
  rcases h with ⟨hel, hhost, -, hsc, -⟩ | ⟨hsc, hho, hus, -⟩
  · have e : ResolveReference p.url (ofParts (star loc) ps f) = withPath { ofParts (star loc) ps f with scheme := if ps.scheme = [] then p.url.scheme else ps.scheme }
        (resolvePath (ofParts (star loc) ps f).EscapedPath []) := by
      unfold ResolveReference
      exact if_pos hel
    obtain ⟨k1, k2, k3, k4⟩ := host_path hm hhost
    have hr47 := hwr k3
    obtain ⟨r1, r2, r3⟩ := resolve _ [] hr47 hwe enc_nil
    obtain ⟨path, raw, e1, e2⟩ := withPath_eq { ofParts (star loc) ps f with scheme := if ps.scheme = [] then p.url.scheme else ps.scheme } _ r1 r3
    have hok : Ok ⟨ResolveReference p.url (ofParts (star loc) ps f), forced loc⟩ := by
      rw [e]
      refine ⟨by rw [e1]; exact k1, by rw [e2]; exact r1, by rw [e2]; exact r3, ?_⟩
      rw [e1]
      exact means_query hm
    have := (check_eq hok ⟨_, _, _⟩).mpr ⟨?_, ?_, rfl⟩
    · rw [this] at hq; cases hq
    · rw [e, e1]
      show (if ps.scheme = [] then p.url.scheme else ps.scheme) = _ ∨ (if ps.scheme = [] then p.url.scheme else ps.scheme) = _
      rcases hsc with ⟨h, -⟩ | ⟨h, -⟩ | ⟨h, -⟩
      · rw [if_pos h]; exact ps1
      · rw [if_neg (by rw [h]; decide)]; exact .inl h
      · rw [if_neg (by rw [h]; decide)]; exact .inr h
    · rw [e, e1]; exact hhost
  · obtain ⟨u0, e, f1, f2, f3, f4⟩ := resolve_here p.url (ofParts (star loc) ps f) hsc hho hus (means_opaq hm hsc)
    obtain ⟨r1, r2, r3⟩ := resolve _ _ hp.rooted hp.enc hwe
    obtain ⟨path, raw, e1, e2⟩ := withPath_eq u0 _ r1 r3
    have hok : Ok ⟨ResolveReference p.url (ofParts (star loc) ps f), forced loc⟩ := by
      rw [e]
      refine ⟨by rw [e1]; exact f2, by rw [e2]; exact r1, by rw [e2]; exact r3, ?_⟩
      rw [e1]
      show ∀ c ∈ u0.rawQuery, _
      rw [f4]
      split
      · exact hp.query
      · exact means_query hm
    have := (check_eq hok ⟨_, _, _⟩).mpr ⟨?_, ?_, rfl⟩
    · rw [this] at hq; cases hq
    · rw [e, e1]
      show u0.scheme = _ ∨ u0.scheme = _
      rw [f1]; exact ps1
    · rw [e, e1]
      show u0.host ≠ []
      rw [f3]; exact ps2

/-- what can be said of the requests and of the result, when at most `n` requests are allowed and `i` were made -/
structure Chain (net : Nat → Hop → Option Answer) (n i : Nat) (R : List Hop × Option Bytes) : Prop where
  atMost : R.1.length ≤ n
  /-- each request but the first follows from an answer to the one before -/
  caused : ∀ j h h', R.1[j]? = some h → R.1[j + 1]? = some h' →
    ∃ a, net (i + j) h = some a ∧ Redirecting a.status ∧ a.location ≠ [] ∧ Next h.tls h.host h.target a.location h'.tls h'.host h'.target
  /-- the last request: its answer is the result, or nobody answers, or there is no next request, or there were too many -/
  last : ∀ h, R.1.getLast? = some h →
    (∃ a, net (i + (R.1.length - 1)) h = some a ∧ Final a ∧ R.2 = some a.body) ∨
    R.2 = none ∧ (net (i + (R.1.length - 1)) h = none ∨ ∃ a, net (i + (R.1.length - 1)) h = some a ∧ ¬ Final a ∧
      (a.location = [] ∨ R.1.length = n ∨ ∀ tls host target, ¬ Next h.tls h.host h.target a.location tls host target))
  nobody : R.1 = [] → R.2 = none

theorem run_chain (net : Nat → Hop → Option Answer) : ∀ (n i : Nat) (p : Place), (∀ hop, p.check = some hop → Ok p) →
    Chain net n i (run net n i p) ∧ (0 < n → (run net n i p).1.head? = p.check) := by
  intro n
  induction n with
  | zero => intro i p _; exact ⟨⟨Nat.le_refl _, nofun, nofun, fun _ => rfl⟩, fun h => absurd h (Nat.lt_irrefl _)⟩
  | succ n ih =>
    intro i p hp
    rw [run]
    cases hc : p.check with
    | none => exact ⟨⟨Nat.zero_le _, nofun, nofun, fun _ => rfl⟩, fun _ => rfl⟩
    | some hop =>
      have hok := hp hop hc
      have one : ∀ (res : Option Bytes), ((∃ a, net i hop = some a ∧ Final a ∧ res = some a.body) ∨
          res = none ∧ (net i hop = none ∨ ∃ a, net i hop = some a ∧ ¬ Final a ∧
            (a.location = [] ∨ 1 = n + 1 ∨ ∀ tls host target, ¬ Next hop.tls hop.host hop.target a.location tls host target))) → Chain net (n + 1) i ([hop], res) := by
        intro res h
        refine ⟨by simp, ?_, ?_, nofun⟩
        · intro j h1 h2 _ e2
          simp at e2
        · intro h1 e1
          simp at e1
          subst e1
          simpa using h
      simp only
      cases hnet : net i hop with
      | none => exact ⟨one none (.inr ⟨rfl, .inl hnet⟩), fun _ => rfl⟩
      | some a =>
        simp only
        by_cases hf : follows a = false
        · rw [if_pos hf]
          exact ⟨one _ (.inl ⟨a, hnet, (follows_iff a).mp hf, rfl⟩), fun _ => rfl⟩
        · have hnf : ¬ Final a := fun h => hf ((follows_iff a).mpr h)
          rw [if_neg hf]
          by_cases hl : a.location = []
          · rw [if_pos hl]
            exact ⟨one _ (.inr ⟨rfl, .inr ⟨a, hnet, hnf, .inl hl⟩⟩), fun _ => rfl⟩
          · rw [if_neg hl]
            cases hn : p.next a.location with
            | none => exact ⟨one _ (.inr ⟨rfl, .inr ⟨a, hnet, hnf, .inr (.inr fun tls host target => next_none hn hop tls host target)⟩⟩), fun _ => rfl⟩
            | some q =>
              refine ⟨?_, fun _ => rfl⟩
              simp only
              obtain ⟨⟨i1, i2, i3, i4⟩, i5⟩ := ih (i + 1) q (fun hop' hq => (next_spec hok hc hn hq).1)
              have hred : Redirecting a.status := by
                apply Classical.byContradiction
                intro h
                exact hnf (.inl h)
              cases hr : (run net n (i + 1) q).1 with
              | nil =>
                have e : (run net n (i + 1) q).2 = none := i4 hr
                rw [e]
                refine one none (.inr ⟨rfl, .inr ⟨a, hnet, hnf, .inr ?_⟩⟩)
                cases n with
                | zero => exact .inl rfl
                | succ n =>
                  refine .inr fun tls host target => next_stop hok hc hn ?_ tls host target
                  rw [← i5 (by omega), hr]
                  rfl
              | cons h0 t =>
                have hq : q.check = some h0 := by
                  cases n with
                  | zero => cases hr
                  | succ n => rw [← i5 (by omega), hr]; rfl
                rw [hr] at i1 i2 i3
                refine ⟨by simpa using i1, ?_, ?_, nofun⟩
                · intro j h1 h2 e1 e2
                  cases j with
                  | zero =>
                    simp at e1 e2
                    subst e1 e2
                    exact ⟨a, hnet, hred, hl, (next_spec hok hc hn hq).2⟩
                  | succ j =>
                    simp only [List.getElem?_cons_succ] at e1 e2
                    have := i2 j h1 h2 e1 (by simpa using e2)
                    rwa [show i + (j + 1) = i + 1 + j by omega]
                · intro h1 e1
                  have e1' : (h0 :: t).getLast? = some h1 := by rw [← e1]; simp [List.getLast?_cons]
                  have := i3 h1 e1'
                  simp only [List.length_cons, Nat.add_sub_cancel] at this ⊢
                  rw [show i + (t.length + 1) = i + 1 + t.length by omega, show t.length + 1 + 1 = n + 1 ↔ t.length + 1 = n by omega]
                  exact this

/-- the first request is that of C121 -/
theorem do_check (net' : Bool → Bytes → Bytes → Option Bytes) (u : URL) (force : Bool) (h : u.rawQuery ≠ []) :
    Do net' u = (Place.check ⟨u, force⟩).bind fun h => net' h.tls h.host h.target := by
  unfold Do Place.check
  have ht : Place.target ⟨u, force⟩ = u.RequestURI := by
    unfold Place.target
    rw [if_neg (fun h' => h h'.2), List.append_nil]
  rw [ht]
  by_cases h1 : u.scheme ≠ ascii "http" ∧ u.scheme ≠ ascii "https"
  · simp [h1]
  · by_cases h2 : u.host = []
    · simp [h1, h2]
    · by_cases h3 : u.RequestURI.any Tracker.isCTL = true <;> simp [h1, h2, h3]

/-- **C124** (partial: paths with empty segments are those of `walked`, and not those of the RFC, see `C124_refuted_segments`).  For one announcement at most ten requests are made.  The first is
that of C121; each other one follows from an answer to the one before, with one of the five status codes and a location, as RFC 3986 says.  The result is the body of the last answer;
there is none if nobody answers, if the last answer redirects without a location or to something that is no http or https URL with a host, or if there are too many redirections. -/
theorem C124_followed_partial (net : Nat → Hop → Option Answer) (raw : Bytes) (vs : List (Bytes × Bytes)) (hvs : Url.Encode vs ≠ []) :
    Chain net 10 0 (requests net raw (Url.Encode vs)) ∧
    ∀ net', UrlParse.send net' raw (Url.Encode vs) = (requests net raw (Url.Encode vs)).1.head?.bind fun h => net' h.tls h.host h.target := by
  unfold requests UrlParse.send NewRequest
  cases hp : Parse raw with
  | none => exact ⟨⟨Nat.zero_le _, nofun, nofun, fun _ => rfl⟩, fun _ => rfl⟩
  | some u =>
    obtain ⟨ps, f, hm, rfl⟩ := (Parse_iff raw u).mp hp
    simp only [Option.bind_eq_bind, Option.bind_some]
    have hok : ∀ hop, Place.check ⟨{ ofParts (star raw) ps f with host := removeEmptyPort ps.host, rawQuery := Url.Encode vs }, forced raw⟩ = some hop →
        Ok ⟨{ ofParts (star raw) ps f with host := removeEmptyPort ps.host, rawQuery := Url.Encode vs }, forced raw⟩ := by
      intro hop hc
      obtain ⟨-, hh⟩ := check_host hc
      have hne : ps.host ≠ [] := by
        intro e
        apply hh
        show removeEmptyPort ps.host = []
        rw [e]; rfl
      obtain ⟨k1, k2, k3, k4⟩ := host_path hm hne
      obtain ⟨hw, hwr⟩ := escaped hm
      exact ⟨k1, ⟨hw.1, _, hw.2.1⟩, hwr k3, encode_chars vs⟩
    obtain ⟨h1, h2⟩ := run_chain net 10 0 ⟨{ ofParts (star raw) ps f with host := removeEmptyPort ps.host, rawQuery := Url.Encode vs }, forced raw⟩ hok
    refine ⟨h1, fun net' => ?_⟩
    have h2 := h2 (by omega)
    have : ∀ (o : Option Hop) (R : List Hop × Option Bytes), R.1.head? = o → (R.1.head?.bind fun h => net' h.tls h.host h.target) = o.bind fun h => net' h.tls h.host h.target := by
      intro o R e; rw [e]
    exact (do_check net' _ (forced raw) hvs).trans (this _ _ h2).symm

/-- the example: a tracker that redirects -/
def exampleNet (i : Nat) (h : Hop) : Option Answer :=
  if i = 0 ∧ h.host = ascii "a.org" then some ⟨302, ascii "../b/./c?x", []⟩
  else if i = 1 ∧ h.target = ascii "/b/c?x" then some ⟨307, ascii "https://b.org", []⟩
  else if i = 2 ∧ h.tls = true then some ⟨200, [], ascii "d8:intervali60e5:peers0:e"⟩
  else none

example : requests exampleNet (ascii "http://a.org/t/announce") (Url.Encode [(ascii "port", ascii "60666")]) =
    ([⟨false, ascii "a.org", ascii "/t/announce?port=60666"⟩, ⟨false, ascii "a.org", ascii "/b/c?x"⟩, ⟨true, ascii "b.org", ascii "/"⟩], some (ascii "d8:intervali60e5:peers0:e")) ∧
    Url.Encode [(ascii "port", ascii "60666")] ≠ [] := by decide +kernel

/-- `walked`: without empty segments as the RFC says; one slash in front at most (but for the second slash of an empty segment); and without a slash in front, the first ".." forgets it -/
example : walked (ascii "/a/./b/../c") = ascii "/a/c" ∧ walked (ascii "/a/..//b") = ascii "//b" ∧ walked (ascii "a/..//b") = ascii "/b" ∧ walked (ascii "/..//b") = ascii "/b" ∧
    walked (ascii "/a/b/..") = ascii "/a/" := by decide +kernel

/-- a tracker that redirects to itself for ever -/
def loopNet (_ : Nat) (_ : Hop) : Option Answer := some ⟨301, ascii "/again", []⟩

example : (requests loopNet (ascii "http://a.org/t") (ascii "port=60666")).1.length = 10 ∧ send loopNet (ascii "http://a.org/t") (ascii "port=60666") = none := by decide +kernel

/-- **C124** without redirections: one request at most, and the result is that of C121. -/
theorem C124_plain (net : Nat → Hop → Option Answer) (raw : Bytes) (vs : List (Bytes × Bytes)) (hvs : Url.Encode vs ≠ []) (h : ∀ hop a, net 0 hop = some a → ¬ Redirecting a.status) :
    (requests net raw (Url.Encode vs)).1.length ≤ 1 ∧
    send net raw (Url.Encode vs) = UrlParse.send (fun tls host target => (net 0 ⟨tls, host, target⟩).map (·.body)) raw (Url.Encode vs) := by
  obtain ⟨hc, hs⟩ := C124_followed_partial net raw vs hvs
  rw [hs]
  unfold send
  cases hR : (requests net raw (Url.Encode vs)).1 with
  | nil => exact ⟨Nat.zero_le _, hc.nobody hR⟩
  | cons h0 t =>
    cases t with
    | cons h1 t =>
      obtain ⟨a, e, hr, -⟩ := hc.caused 0 h0 h1 (by rw [hR]; rfl) (by rw [hR]; rfl)
      exact absurd hr (h _ _ e)
    | nil =>
      refine ⟨Nat.le_refl _, ?_⟩
      show _ = (net 0 h0).map (·.body)
      rcases hc.last h0 (by rw [hR]; rfl) with ⟨a, e, -, e2⟩ | ⟨e2, e | ⟨a, e, hn, -⟩⟩
      · rw [hR] at e
        rw [e2, show net 0 h0 = some a from e]
        rfl
      · rw [hR] at e
        rw [e2, show net 0 h0 = none from e]
        rfl
      · rw [hR] at e
        exact absurd (.inl (h _ _ e)) hn

example : send (fun _ h => if h.target = ascii "/t?port=1" then some ⟨404, ascii "/x", ascii "no"⟩ else none) (ascii "http://a.org/t") (Url.Encode [(ascii "port", [49])]) = some (ascii "no") := by
  decide +kernel

/-! ## the removal of dots is a function -/

theorem seg_cut {seg inp : Bytes} (h : 47 ∉ seg) (h' : inp = [] ∨ inp.head? = some 47) : (seg ++ inp).takeWhile (· ≠ 47) = seg ∧ (seg ++ inp).dropWhile (· ≠ 47) = inp := by
  induction seg with
  | nil =>
    rcases h' with rfl | h'
    · exact ⟨rfl, rfl⟩
    · cases inp with
      | nil => exact ⟨rfl, rfl⟩
      | cons c t => simp at h'; subst h'; simp
  | cons c t ih =>
    have hc : c ≠ 47 := fun e => h (e ▸ List.mem_cons_self)
    obtain ⟨i1, i2⟩ := ih (fun e => h (List.mem_cons_of_mem _ e))
    rw [List.cons_append, List.takeWhile_cons_of_pos (by simpa using hc), List.dropWhile_cons_of_pos (by simpa using hc), i1, i2]
    exact ⟨rfl, rfl⟩

theorem dropLast_unique {out a b : Bytes} (ha : DropLast out a) (hb : DropLast out b) : a = b := by
  have key : ∀ (x : Bytes) (s : Bytes) (y t : Bytes), x ++ 47 :: s = y ++ 47 :: t → 47 ∉ s → 47 ∉ t → x = y := by
    intro x s y t e hs ht
    have e' := congrArg List.reverse e
    simp only [List.reverse_append, List.reverse_cons, List.append_assoc, List.singleton_append] at e'
    have h1 := seg_cut (seg := s.reverse) (inp := 47 :: x.reverse) (by simpa using hs) (.inr rfl)
    have h2 := seg_cut (seg := t.reverse) (inp := 47 :: y.reverse) (by simpa using ht) (.inr rfl)
    rw [e', h2.2] at h1
    have := h1.2
    simp at this
    exact this.symm
  rcases ha with ⟨s, rfl, hs⟩ | ⟨h1, rfl⟩ <;> rcases hb with ⟨t, e, ht⟩ | ⟨h2, rfl⟩
  · exact key _ _ _ _ e hs ht
  · exact absurd (by simp) h2
  · exact absurd (e ▸ by simp) h1
  · rfl

/-- the removal of dots of RFC 3986 gives one result -/
theorem dots_unique {inp out r : Bytes} (h : Dots inp out r) : ∀ r', Dots inp out r' → r = r' := by
  have bad : ∀ {seg inp x : Bytes}, 47 ∉ seg → (inp = [] ∨ inp.head? = some 47) → seg ++ inp = x → x.takeWhile (· ≠ 47) = seg := by
    rintro seg inp x h1 h2 rfl
    exact (seg_cut h1 h2).1
  induction h with
  | nil out =>
    intro r' h'
    generalize hi : ([] : Bytes) = inp at h'
    cases h' with
    | nil => rfl
    | e' seg inp _ _ _ _ _ _ h5 => exact absurd (List.append_eq_nil_iff.mp hi.symm).1 h5
    | _ => cases hi
  | a2 inp out r _ ih =>
    intro r' h'
    generalize hi : (46 :: 46 :: 47 :: inp : Bytes) = inp' at h'
    cases h' <;> try (simp at hi; done)
    · simp at hi; subst hi; exact ih _ ‹_›
    · rename_i h1 h2 h3 h4 h5 _
      exact absurd (bad h1 h2 hi.symm).symm (by simpa using h4)
  | a1 inp out r _ ih =>
    intro r' h'
    generalize hi : (46 :: 47 :: inp : Bytes) = inp' at h'
    cases h' <;> try (simp at hi; done)
    · simp at hi; subst hi; exact ih _ ‹_›
    · rename_i h1 h2 h3 h4 h5 _
      exact absurd (bad h1 h2 hi.symm).symm (by simpa using h3)
  | b inp out r _ ih =>
    intro r' h'
    generalize hi : (47 :: 46 :: 47 :: inp : Bytes) = inp' at h'
    cases h' <;> try (simp at hi; done)
    · simp at hi; subst hi; exact ih _ ‹_›
    · rename_i h1 h2 h3 h4 _
      simp at hi
      exact absurd (bad h1 h2 hi.symm).symm (by simpa using h3)
    · rename_i h1 h2 h3 h4 h5 _
      exact absurd (bad h1 h2 hi.symm).symm (by simpa using h5)
  | bEnd out r _ ih =>
    intro r' h'
    generalize hi : ([47, 46] : Bytes) = inp' at h'
    cases h' <;> try (simp at hi; done)
    · exact ih _ ‹_›
    · rename_i h1 h2 h3 h4 _
      simp at hi
      exact absurd (bad h1 h2 hi.symm).symm (by simpa using h3)
    · rename_i h1 h2 h3 h4 h5 _
      exact absurd (bad h1 h2 hi.symm).symm (by simpa using h5)
  | c inp out out' r hd _ ih =>
    intro r' h'
    generalize hi : (47 :: 46 :: 46 :: 47 :: inp : Bytes) = inp' at h'
    cases h' <;> try (simp at hi; done)
    · rename_i h1 h2
      simp at hi; subst hi
      rw [dropLast_unique h1 hd] at h2
      exact ih _ h2
    · rename_i h1 h2 h3 h4 _
      simp at hi
      exact absurd (bad h1 h2 hi.symm).symm (by simpa using h4)
    · rename_i h1 h2 h3 h4 h5 _
      exact absurd (bad h1 h2 hi.symm).symm (by simpa using h5)
  | cEnd out out' r hd _ ih =>
    intro r' h'
    generalize hi : ([47, 46, 46] : Bytes) = inp' at h'
    cases h' <;> try (simp at hi; done)
    · rename_i h1 h2
      rw [dropLast_unique h1 hd] at h2
      exact ih _ h2
    · rename_i h1 h2 h3 h4 _
      simp at hi
      exact absurd (bad h1 h2 hi.symm).symm (by simpa using h4)
    · rename_i h1 h2 h3 h4 h5 _
      exact absurd (bad h1 h2 hi.symm).symm (by simpa using h5)
  | d1 out r _ ih =>
    intro r' h'
    generalize hi : ([46] : Bytes) = inp' at h'
    cases h' <;> try (simp at hi; done)
    · exact ih _ ‹_›
    · rename_i h1 h2 h3 h4 h5 _
      exact absurd (bad h1 h2 hi.symm).symm (by simpa using h3)
  | d2 out r _ ih =>
    intro r' h'
    generalize hi : ([46, 46] : Bytes) = inp' at h'
    cases h' <;> try (simp at hi; done)
    · exact ih _ ‹_›
    · rename_i h1 h2 h3 h4 h5 _
      exact absurd (bad h1 h2 hi.symm).symm (by simpa using h4)
  | e seg inp out r h1 h2 h3 h4 _ ih =>
    intro r' h'
    generalize hi : (47 :: seg ++ inp : Bytes) = inp' at h'
    cases h' <;> try (simp at hi; done)
    · simp at hi
      exact absurd (bad h1 h2 hi).symm (by simpa using h3)
    · simp at hi
      exact absurd (bad h1 h2 (x := [46]) (by simp [hi])).symm (by simpa using h3)
    · simp at hi
      exact absurd (bad h1 h2 hi).symm (by simpa using h4)
    · simp at hi
      exact absurd (bad h1 h2 (x := [46, 46]) (by simp [hi])).symm (by simpa using h4)
    · rename_i seg' inp' k1 k2 k3 k4 k5
      simp at hi
      have e1 := seg_cut h1 h2
      rw [hi] at e1
      have e2 := seg_cut k1 k2
      obtain rfl := e1.1.symm.trans e2.1
      obtain rfl := e1.2.symm.trans e2.2
      exact ih _ k5
    · rename_i h1 h2 h3 h4 h5 _
      exact absurd (bad h1 h2 hi.symm).symm (by simpa using h5)
  | e' seg inp out r h1 h2 h3 h4 h5 _ ih =>
    intro r' h'
    generalize hi : (seg ++ inp : Bytes) = inp' at h'
    have hh := bad h1 h2 hi
    cases h' with
    | nil => exact absurd hh.symm (by simpa using h5)
    | a2 => exact absurd hh.symm (by simpa using h4)
    | a1 => exact absurd hh.symm (by simpa using h3)
    | b => exact absurd hh.symm (by simpa using h5)
    | bEnd => exact absurd hh.symm (by simpa using h5)
    | c => exact absurd hh.symm (by simpa using h5)
    | cEnd => exact absurd hh.symm (by simpa using h5)
    | d1 => exact absurd hh.symm (by simpa using h3)
    | d2 => exact absurd hh.symm (by simpa using h4)
    | e => exact absurd hh.symm (by simpa using h5)
    | e' seg' inp' _ _ k1 k2 _ _ _ k5 =>
      have e1 := seg_cut h1 h2
      rw [hi] at e1
      have e2 := seg_cut k1 k2
      obtain rfl := e1.1.symm.trans e2.1
      obtain rfl := e1.2.symm.trans e2.2
      exact ih _ k5

/-- **C124 refuted** for paths with empty segments: a redirection to `/..//b` is a request for `/b`; RFC 3986 says `//b`, and nothing else. -/
theorem C124_refuted_segments : ∃ (net : Nat → Hop → Option Answer) (raw : Bytes) (vs : List (Bytes × Bytes)) (h h' : Hop),
    (requests net raw (Url.Encode vs)).1 = [h, h'] ∧ net 0 h = some ⟨302, ascii "/..//b", []⟩ ∧ h'.target = ascii "/b" ∧
    (∀ r, Dots (ascii "/..//b") [] r ↔ r = ascii "//b") := by
  refine ⟨fun i _ => if i = 0 then some ⟨302, ascii "/..//b", []⟩ else none, ascii "http://a.org/t", [(ascii "port", [49])],
    ⟨false, ascii "a.org", ascii "/t?port=1"⟩, ⟨false, ascii "a.org", ascii "/b"⟩, by decide +kernel, rfl, rfl, ?_⟩
  have hd : Dots (ascii "/..//b") [] (ascii "//b") := by
    refine .c [47, 98] [] [] _ (.inr ⟨nofun, rfl⟩) ?_
    refine .e [] [47, 98] [] _ nofun (.inr rfl) (by decide) (by decide) ?_
    refine .e [98] [] _ _ (by decide) (.inl rfl) (by decide) (by decide) ?_
    exact .nil _
  intro r
  exact ⟨fun h => (dots_unique hd r h).symm, fun h => h ▸ hd⟩

/-- **C124 refuted**: an announcement stays with the tracker that the torrent names.  A tracker sends the client to another host, without encryption although the torrent asked for it,
and the parameters of the announcement are lost; the answer of that host is taken for the tracker's. -/
theorem C124_refuted_elsewhere : ∃ (net : Nat → Hop → Option Answer) (raw : Bytes) (vs : List (Bytes × Bytes)) (h h' : Hop) (body : Bytes),
    requests net raw (Url.Encode vs) = ([h, h'], some body) ∧ h.tls = true ∧ h'.tls = false ∧ h'.host ≠ h.host ∧ ¬ Url.Encode vs <:+: h'.target ∧ net 1 h' = some ⟨200, [], body⟩ := by
  refine ⟨fun i _ => if i = 0 then some ⟨302, ascii "http://b.org/x", []⟩ else some ⟨200, [], ascii "de"⟩, ascii "https://a.org/t", [(ascii "port", [49])],
    ⟨true, ascii "a.org", ascii "/t?port=1"⟩, ⟨false, ascii "b.org", ascii "/x"⟩, ascii "de", by decide +kernel, rfl, rfl, by decide, ?_, rfl⟩
  intro h
  exact absurd h.length_le (by decide +kernel)

end Verif.Redirect
