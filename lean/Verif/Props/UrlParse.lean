import Verif.Lemmas.UrlRef
import Verif.Props.Log
/-
C121: the announcement goes where the torrent file says.  And C65, C109 with the real `url.Parse`.
-/
set_option autoImplicit false

namespace Verif.UrlParse
open Verif.UrlSpec Verif.Query Verif.Url

/-! ### what is a URL -/

/-- **C121**: which texts `url.Parse` accepts, and the parts that it finds, exactly. -/
theorem C121_parse (raw scheme opaq : Bytes) (user : Option (Bytes × Option Bytes)) (host path query fragment : Bytes) :
    (∃ u, Parse raw = some u ∧ u.scheme = scheme ∧ u.opaq = opaq ∧ u.user = user ∧ u.host = host ∧ u.path = path ∧ u.rawQuery = query ∧ u.fragment = fragment) ↔
      ∃ pathText, Means raw ⟨scheme, opaq, user, host, path, pathText, query⟩ fragment := by
  constructor
  · rintro ⟨u, h, rfl, rfl, rfl, rfl, rfl, rfl, rfl⟩
    obtain ⟨ps, f, hm, rfl⟩ := (Parse_iff raw u).mp h
    exact ⟨ps.pathText, hm⟩
  · rintro ⟨p, hm⟩
    exact ⟨_, (Parse_iff raw _).mpr ⟨_, _, hm, rfl⟩, rfl, rfl, rfl, rfl, rfl, rfl, rfl⟩

theorem Means.parse {raw : Bytes} {ps : Parts} {f : Bytes} (h : Means raw ps f) : Parse raw = some (ofParts (star raw) ps f) := (Parse_iff raw _).mpr ⟨ps, f, h, rfl⟩

theorem parse_none {raw : Bytes} : Parse raw = none ↔ ¬ IsURL raw := by
  constructor
  · rintro h ⟨ps, f, hm⟩
    rw [Means.parse hm] at h
    cases h
  · intro h
    cases hp : Parse raw with
    | none => rfl
    | some u =>
      obtain ⟨ps, f, hm, -⟩ := (Parse_iff raw u).mp hp
      exact absurd ⟨ps, f, hm⟩ h

/-- **C121**: a text means at most one thing. -/
theorem C121_unambiguous (raw : Bytes) (ps ps' : Parts) (f f' : Bytes) (h : Means raw ps f) (h' : Means raw ps' f') :
    ps.scheme = ps'.scheme ∧ ps.opaq = ps'.opaq ∧ ps.user = ps'.user ∧ ps.host = ps'.host ∧ ps.path = ps'.path ∧ ps.query = ps'.query ∧ f = f' := by
  have e := Means.parse h
  rw [Means.parse h', Option.some.injEq] at e
  exact ⟨(congrArg URL.scheme e).symm, (congrArg URL.opaq e).symm, (congrArg URL.user e).symm, (congrArg URL.host e).symm, (congrArg URL.path e).symm, (congrArg URL.rawQuery e).symm,
    (congrArg URL.fragment e).symm⟩

theorem announce_none {raw : Bytes} : announce raw = none ↔ ¬ IsURL raw := by
  rw [← parse_none]
  unfold announce NewRequest
  cases Parse raw <;> simp

theorem noControl_of {raw : Bytes} (h : IsURL raw) : NoControl raw := by
  obtain ⟨ps, f, u, r, t, rfl, h35, hc, ht, -⟩ := h
  unfold NoControl
  rw [List.takeWhile_append_of_pos fun c hc => by
    simp only [bne_iff_ne, ne_eq]
    rintro rfl
    exact h35 hc]
  intro c hm
  rcases List.mem_append.mp hm with hm | hm
  · exact hc c hm
  · rcases ht with ⟨rfl, -⟩ | rfl
    · simp at hm
    · rw [List.takeWhile_cons_of_neg (by decide)] at hm
      simp at hm

/-- **C65**, exact and without parameters: announcing panics exactly if the announce URL of the torrent file is not a URL. -/
theorem C65_exact_partial (v6 : Peer.IP → Bytes) (parseIP : Bytes → Peer.IP) (http : Bytes → Option Bytes) (spare : Bytes) (tor : Torrent.Torrent) (stats : Tracker.Stats) (port : UInt16)
    (peerId : Bytes) : Tracker.Get v6 parseIP announce http spare tor stats port peerId = .panic ↔ ¬ IsURL tor.announce := by
  rw [(Tracker.C65_panic_iff_partial _ _ _ _ _ _ _ _ _).1, announce_none]
  constructor
  · rintro (h | h)
    · exact fun hu => h (noControl_of hu)
    · exact h
  · exact .inr

/-! ### parameters -/

theorem ne_of {sep : UInt8} {a : Bytes} (h : sep ∉ a) : ∀ c ∈ a, c ≠ sep := fun _ hc e => h (e ▸ hc)


/-- one round of the loop finds what the specification says -/
theorem queryPair_iff (piece : Bytes) (p : Bytes × Bytes) : queryPair piece = some p ↔ Param piece p := by
  unfold queryPair Param
  obtain ⟨k, r, v, e, hk, ht, c1, c2⟩ := tail_cut piece 61
  rw [c1, c2]
  by_cases h59 : (59 : UInt8) ∈ piece
  · rw [if_pos (by simpa using h59)]
    simp [h59]
  · rw [if_neg (by simpa using h59)]
    by_cases hne : piece = []
    · rw [if_pos hne]
      simp [hne]
    · rw [if_neg hne]
      simp only [Option.bind_eq_bind, Option.bind_eq_some_iff, unescape_query, Option.some.injEq]
      constructor
      · rintro ⟨a, ha, b, hb, rfl⟩
        exact ⟨hne, h59, k, r, v, e, hk, ht, ha, hb⟩
      · rintro ⟨-, -, k', r', v', e', hk', ht', ha, hb⟩
        obtain ⟨rfl, rfl⟩ : k' = k ∧ v' = v := by
          rcases ht' with ⟨rfl, rfl⟩ | rfl
          · rw [List.append_nil] at e'
            rw [e', cut_none _ _ hk'] at c1 c2
            exact ⟨c1, c2⟩
          · rw [e', cut_append _ _ _ hk'] at c1 c2
            exact ⟨c1, c2⟩
        exact ⟨p.1, ha, p.2, hb, rfl⟩

theorem parseQuery_eq : ∀ (n : Nat) (q : Bytes), q.length ≤ n → parseQuery n q = (splitOn 38 q).filterMap queryPair := by
  intro n
  induction n with
  | zero =>
    intro q hq
    obtain rfl := List.length_eq_zero_iff.mp (Nat.le_zero.mp hq)
    rfl
  | succ n ih =>
    intro q hq
    rw [parseQuery]
    by_cases hne : q = []
    · rw [if_pos hne, hne]
      rfl
    · rw [if_neg hne]
      rcases first_sep 38 q with h | ⟨a, b, rfl, h⟩
      · rw [cut_none _ _ h, splitOn_none _ _ (ne_of h), ih [] (by simp)]
        simp only [List.filterMap_cons, List.filterMap_nil]
        have e : (splitOn 38 []).filterMap queryPair = [] := rfl
        rw [e]
        cases queryPair q <;> rfl
      · rw [cut_append _ _ _ h, splitOn_append _ _ _ (ne_of h), ih b (by simp at hq; omega)]
        simp only [List.filterMap_cons]
        cases queryPair a <;> rfl

/-- **C121**: the parameters that the program finds in the query of the announce URL: the pieces between the `&`s that are parameters, in their order. -/
theorem C121_params (u : URL) : ∃ f : Bytes → Option (Bytes × Bytes), (∀ piece p, f piece = some p ↔ Param piece p) ∧ u.Query = (splitOn 38 u.rawQuery).filterMap f :=
  ⟨queryPair, queryPair_iff, parseQuery_eq _ _ (Nat.le_refl _)⟩

/-- a `key=value` as servers read it, without `;`, is a parameter -/
theorem param_of_pair {piece : Bytes} {p : Bytes × Bytes} (h : parsePair piece = some p) (h59 : 59 ∉ piece) : Param piece p := by
  unfold parsePair at h
  rcases first_sep 61 piece with h1 | ⟨k, v, rfl, h1⟩
  · rw [splitOn_none _ _ (ne_of h1)] at h
    cases h
  · rw [splitOn_append _ _ _ (ne_of h1)] at h
    rcases first_sep 61 v with h2 | ⟨x, y, rfl, h2⟩
    · rw [splitOn_none _ _ (ne_of h2)] at h
      simp only at h
      cases ha : Query.unescape k with
      | none => rw [ha] at h; cases h
      | some a =>
        cases hb : Query.unescape v with
        | none => rw [ha, hb] at h; cases h
        | some b =>
          rw [ha, hb] at h
          cases h
          exact ⟨by simp, h59, k, 61 :: v, v, rfl, h1, .inr rfl, ha, hb⟩
    · rw [splitOn_append _ _ _ (ne_of h2)] at h
      cases hs : splitOn 61 y with
      | nil =>
        have : ∀ s : Bytes, splitOn 61 s ≠ [] := by
          intro s
          cases s with
          | nil => simp [splitOn]
          | cons c s => rw [splitOn]; split <;> (try split) <;> simp
        exact absurd hs (this y)
      | cons _ _ => rw [hs] at h; cases h

theorem splitOn_mem (sep : UInt8) (s : Bytes) : ∀ p ∈ splitOn sep s, ∀ c ∈ p, c ∈ s := by
  suffices H : ∀ n (s : Bytes), s.length ≤ n → ∀ p ∈ splitOn sep s, ∀ c ∈ p, c ∈ s from H _ s (Nat.le_refl _)
  intro n
  induction n with
  | zero =>
    intro s hl
    obtain rfl := List.length_eq_zero_iff.mp (Nat.le_zero.mp hl)
    intro p hp c hc
    rw [splitOn, List.mem_singleton] at hp
    rw [hp] at hc
    exact hc
  | succ n ih =>
    intro s hl p hp c hc
    rcases first_sep sep s with h | ⟨a, b, rfl, h⟩
    · rw [splitOn_none _ _ (ne_of h), List.mem_singleton] at hp
      rwa [← hp]
    · rw [splitOn_append _ _ _ (ne_of h)] at hp
      simp only [List.length_append, List.length_cons] at hl
      rcases List.mem_cons.mp hp with rfl | hp
      · exact List.mem_append.mpr (.inl hc)
      · exact List.mem_append.mpr (.inr (List.mem_cons_of_mem _ (ih b (by omega) p hp c hc)))

theorem filterMap_of_mapM {f : Bytes → Option (Bytes × Bytes)} {g : Bytes → Option (Bytes × Bytes)} : ∀ (l : List Bytes) (ps : List (Bytes × Bytes)), l.mapM g = some ps →
    (∀ x ∈ l, ∀ p, g x = some p → f x = some p) → l.filterMap f = ps := by
  intro l
  induction l with
  | nil => intro ps h _; simp at h; subst h; rfl
  | cons x l ih =>
    intro ps h hg
    rw [List.mapM_cons] at h
    simp only [Option.bind_eq_bind, Option.bind_eq_some_iff, Option.pure_def, Option.some.injEq] at h
    obtain ⟨p, hp, ps', hps, rfl⟩ := h
    rw [List.filterMap_cons, hg x (List.mem_cons_self ..) p hp, ih ps' hps fun y hy => hg y (List.mem_cons_of_mem _ hy)]

theorem query_kept {q : Bytes} {extra : List (Bytes × Bytes)} (h : Query.parseQuery q = some extra) (h59 : 59 ∉ q) : parseQuery q.length q = extra := by
  rw [parseQuery_eq _ _ (Nat.le_refl _)]
  refine filterMap_of_mapM _ _ h fun x hx p hp => (queryPair_iff x p).mpr (param_of_pair hp ?_)
  exact fun hm => h59 (splitOn_mem 38 q x hx 59 hm)

theorem announce_of {raw : Bytes} {ps : Parts} {f : Bytes} (h : Means raw ps f) : announce raw = some (parseQuery ps.query.length ps.query) := by
  unfold announce NewRequest
  rw [Means.parse h]
  rfl

/-- **C121** (partial: the query of the announce URL, if there is one, is `key=value`s with `&` in between that can be decoded, and has no `;`).  Then the tracker reads all of these
parameters and, behind them, those of the program. -/
theorem C121_kept_partial (tor : Torrent.Torrent) (stats : Tracker.Stats) (port : UInt16) (peerId : Bytes) (ps : Parts) (f : Bytes) (h : Means tor.announce ps f)
    (extra : List (Bytes × Bytes)) (hq : ps.query = [] ∧ extra = [] ∨ Query.parseQuery ps.query = some extra) (h59 : 59 ∉ ps.query) :
    ∃ raw q, Tracker.newRequest announce tor stats port peerId = .ok raw ∧ Query.parseQuery raw = some q ∧
      ∀ k, values q k = values extra k ++ values (Tracker.announced tor.infohash (QueryEscape peerId) port.toNat stats.uploaded.toNat stats.dnloaded.toNat stats.left.toNat) k := by
  refine Tracker.request_values announce tor stats port peerId extra (noControl_of ⟨ps, f, h⟩) ?_
  rw [announce_of h]
  rcases hq with ⟨e, rfl⟩ | hq
  · rw [e]; rfl
  · rw [query_kept hq h59]

/-! ### where the announcement goes -/

theorem pathByte_iff : ∀ c, ((ascii "!$&'()*+,;=:@[]%").contains c || pathByte c) = true ↔
    c ∈ ascii "ABCDEFGHIJKLMNOPQRSTUVWXYZabcdefghijklmnopqrstuvwxyz0123456789-._~!$&'()*+,;=:@[]%/" := all_bytes (by decide +kernel)

theorem validEncoded_iff (s : Bytes) : validEncoded s = true ↔ PathChars s := by
  unfold validEncoded PathChars
  rw [List.all_eq_true]
  exact forall_congr' fun c => imp_congr_right fun _ => pathByte_iff c

theorem escapePath_byte : ∀ c : UInt8, (pathByte c = true ∧ c ≠ 37) ∨ (pathByte c = false ∧ hexVal (hexDigit (c / 16)) = some (c / 16) ∧ hexVal (hexDigit (c % 16)) = some (c % 16) ∧
    c / 16 * 16 + c % 16 = c ∧ hexDigit (c / 16) ∈ ascii "0123456789ABCDEF" ∧ hexDigit (c % 16) ∈ ascii "0123456789ABCDEF") := all_bytes (by decide +kernel)

theorem escapePath_text (s : Bytes) : Text (escapePath s) s := by
  induction s with
  | nil => exact .nil
  | cons c s ih =>
    have e : escapePath (c :: s) = (if pathByte c then [c] else [37, hexDigit (c / 16), hexDigit (c % 16)]) ++ escapePath s := rfl
    rw [e]
    rcases escapePath_byte c with ⟨h1, h2⟩ | ⟨h1, h2, h3, h4, -⟩
    · rw [if_pos h1]
      exact .byte _ _ _ h2 trivial ih
    · rw [if_neg (by rw [h1]; decide)]
      have := Decodes.esc (byte := fun _ => True) (esc := fun _ => True) _ _ _ _ _ _ h2 h3 trivial ih
      rw [h4] at this
      exact this

theorem escapePath_chars (s : Bytes) : PathChars (escapePath s) := by
  unfold escapePath PathChars
  intro c hc
  obtain ⟨l, hl, hc⟩ := List.mem_flatten.mp hc
  obtain ⟨d, -, rfl⟩ := List.mem_map.mp hl
  rw [← pathByte_iff]
  split at hc
  · rename_i hp
    rw [List.mem_singleton] at hc
    rw [hc, hp]
    simp
  · have hx : ∀ c ∈ ascii "0123456789ABCDEF", ((ascii "!$&'()*+,;=:@[]%").contains c || pathByte c) = true := by decide +kernel
    rcases escapePath_byte d with ⟨h1, -⟩ | ⟨-, -, -, -, h1, h2⟩
    · rename_i hp; exact absurd h1 hp
    · simp only [List.mem_cons, List.not_mem_nil, or_false] at hc
      rcases hc with rfl | rfl | rfl
      · decide +kernel
      · exact hx _ h1
      · exact hx _ h2

theorem text_head {p t : Bytes} (h : Text p t) (hp : p = [] ∨ p.head? = some 47) : t = [] ∧ p = [] ∨ t.head? = some 47 := by
  cases h with
  | nil => exact .inl ⟨rfl, rfl⟩
  | byte c => simp at hp; subst hp; exact .inr rfl
  | esc => simp at hp

/-- a host comes with a path that is empty or begins with a slash -/
theorem host_path {raw : Bytes} {ps : Parts} {f : Bytes} (h : Means raw ps f) (hh : ps.host ≠ []) :
    ps.opaq = [] ∧ Text ps.pathText ps.path ∧ (ps.pathText = [] ∨ ps.pathText.head? = some 47) ∧ star raw = false := by
  obtain ⟨u, r, t, rfl, h35, -, ht, hr, -⟩ := h
  have hstar : star (u ++ r) = true → u = [42] := by
    unfold star
    rcases ht with ⟨rfl, rfl⟩ | rfl
    · rw [List.append_nil, cut_none _ _ h35]; simp
    · rw [cut_append _ _ _ h35]; simp
  have key : ∀ {abs : Bool} {x opaq host p : Bytes} {user : Option (Bytes × Option Bytes)}, Rest abs x opaq user host p → host ≠ [] →
      opaq = [] ∧ (p = [] ∨ p.head? = some 47) ∧ x.head? = some 47 := by
    intro abs x opaq host p user hr hh
    cases hr with
    | opaq | relative | rooted | slashes => exact absurd rfl hh
    | authority a p user host ha hp => exact ⟨rfl, hp, rfl⟩
  cases hr with
  | absolute scheme x q opaq user host p path query hw hx hq hr hp =>
    obtain ⟨h1, h2, h3⟩ := key hr hh
    refine ⟨h1, hp, h2, ?_⟩
    rw [Bool.eq_false_iff]
    intro hs
    have := hstar hs
    obtain ⟨c, cs, rfl, -⟩ := hw
    have := congrArg List.length this
    simp at this
  | relative x q opaq user host p path query hx hq hr hp =>
    obtain ⟨h1, h2, h3⟩ := key hr hh
    refine ⟨h1, hp, h2, ?_⟩
    rw [Bool.eq_false_iff]
    intro hs
    have := hstar hs
    cases x with
    | nil => simp at h3
    | cons c x =>
      simp at h3
      subst h3
      cases this

theorem escapeByte_chars (a : UInt8) : ∀ c ∈ escapeByte a, Tracker.isCTL c = false := by
  have h : ∀ a, ((escapeByte a).all fun c => !Tracker.isCTL c) = true := all_bytes (by decide +kernel)
  intro c hc
  have := List.all_eq_true.mp (h a) c hc
  simpa using this

theorem encode_chars (vs : List (Bytes × Bytes)) : ∀ c ∈ Url.Encode vs, Tracker.isCTL c = false := by
  have hq : ∀ s : Bytes, ∀ c ∈ QueryEscape s, Tracker.isCTL c = false := by
    intro s c hc
    obtain ⟨l, hl, hc⟩ := List.mem_flatten.mp hc
    obtain ⟨d, -, rfl⟩ := List.mem_map.mp hl
    exact escapeByte_chars d c hc
  have hp : ∀ p : Bytes × Bytes, ∀ c ∈ encodePair p, Tracker.isCTL c = false := by
    intro p c hc
    unfold encodePair at hc
    simp only [List.append_assoc, List.mem_append, List.mem_singleton] at hc
    rcases hc with hc | rfl | hc
    · exact hq _ _ hc
    · decide
    · exact hq _ _ hc
  unfold Url.Encode
  generalize sortKeys vs = ws
  induction ws with
  | nil => intro c hc; simp [joinPairs] at hc
  | cons p ws ih =>
    intro c hc
    rw [joinPairs] at hc
    split at hc
    · exact hp p c hc
    · simp only [List.append_assoc, List.mem_append, List.mem_singleton] at hc
      rcases hc with hc | rfl | hc
      · exact hp p c hc
      · decide
      · exact ih c hc

theorem trimmed_iff (host h : Bytes) : removeEmptyPort host = h ↔ Trimmed host h := by
  unfold removeEmptyPort Trimmed
  split
  · rename_i hl
    obtain ⟨x, rfl⟩ := List.getLast?_eq_some_iff.mp hl
    rw [List.dropLast_concat]
    constructor
    · rintro rfl; exact .inl rfl
    · rintro (e | ⟨rfl, hn⟩)
      · exact List.append_cancel_right e
      · exact absurd hl hn
  · rename_i hl
    constructor
    · rintro rfl; exact .inr ⟨rfl, hl⟩
    · rintro (rfl | ⟨rfl, -⟩)
      · simp at hl
      · rfl

theorem trimmed_nil {host : Bytes} (h : Trimmed host []) : host = [] ∨ host = [58] := by
  rcases h with h | h
  · exact .inr h
  · exact .inl h.1

/-- **C121**: the network is asked exactly if the scheme is `http` or `https` and there is a host; then it is asked once, at this host (without an empty port), for the path that is
written in the torrent file: as it is written if that is possible, otherwise encoded so that it means the same; and for nothing but the query of the program. -/
theorem C121_sent (net : Bool → Bytes → Bytes → Option Bytes) (raw : Bytes) (ps : Parts) (f : Bytes) (h : Means raw ps f) (host : Bytes) (hhost : Trimmed ps.host host)
    (vs : List (Bytes × Bytes)) (hvs : Url.Encode vs ≠ []) :
    ((ps.scheme = ascii "http" ∨ ps.scheme = ascii "https") ∧ host ≠ [] →
      ∃ target, send net raw (Url.Encode vs) = net (ps.scheme = ascii "https") host (target ++ 63 :: Url.Encode vs) ∧ PathChars target ∧
        (ps.pathText = [] → target = [47]) ∧ (ps.pathText ≠ [] → Text target ps.path ∧ (PathChars ps.pathText → target = ps.pathText))) ∧
    (¬ ((ps.scheme = ascii "http" ∨ ps.scheme = ascii "https") ∧ host ≠ []) → send net raw (Url.Encode vs) = none) := by
  unfold send NewRequest Do
  rw [Means.parse h]
  simp only [Option.bind_eq_bind, Option.bind_some, ofParts, (trimmed_iff _ _).mpr hhost]
  constructor
  · rintro ⟨hs, hh⟩
    have hne : ps.host ≠ [] := by
      intro e
      rw [e] at hhost
      rcases hhost with e | ⟨e, -⟩
      · simp at e
      · exact hh e.symm
    obtain ⟨k1, k2, k3, k4⟩ := host_path h hne
    rw [if_neg (not_not_intro hs), if_neg hh]
    have hpath : ps.path ≠ [42] := by
      intro e
      rcases text_head k2 k3 with ⟨e', -⟩ | e'
      · rw [e'] at e; cases e
      · rw [e] at e'; simp at e'
    have main : ∀ (raw' : Bytes), raw' = (if star raw = true ∨ ps.pathText = escapePath ps.path then [] else ps.pathText) →
        ∃ target, URL.RequestURI ⟨ps.scheme, ps.opaq, ps.user, host, ps.path, raw', Url.Encode vs, f⟩ = target ++ 63 :: Url.Encode vs ∧ PathChars target ∧
        (ps.pathText = [] → target = [47]) ∧ (ps.pathText ≠ [] → Text target ps.path ∧ (PathChars ps.pathText → target = ps.pathText)) := by
      intro raw' hraw
      have hE : ∃ p, URL.EscapedPath ⟨ps.scheme, ps.opaq, ps.user, host, ps.path, raw', Url.Encode vs, f⟩ = p ∧ PathChars p ∧ Text p ps.path ∧
          (PathChars ps.pathText → p = ps.pathText) ∧ (p = [] ↔ ps.pathText = []) := by
        have hnil : escapePath ps.path = [] ↔ ps.pathText = [] := by
          constructor
          · intro e
            have ht := escapePath_text ps.path
            rw [e, text_nil] at ht
            rcases text_head k2 k3 with ⟨-, e'⟩ | e'
            · exact e'
            · rw [ht] at e'; simp at e'
          · intro e
            rw [e, text_nil] at k2
            rw [k2]
            rfl
        unfold URL.EscapedPath
        simp only
        by_cases he : ps.pathText = escapePath ps.path
        · rw [if_pos (.inr he)] at hraw
          rw [hraw, if_neg (fun h => h.1 rfl), if_neg hpath]
          exact ⟨_, rfl, escapePath_chars _, escapePath_text _, fun _ => he.symm, hnil⟩
        · rw [if_neg (by rw [k4]; exact fun h => h.elim (by decide) he)] at hraw
          subst hraw
          by_cases hv : PathChars ps.pathText
          · have hne' : ps.pathText ≠ [] := fun e => he (by rw [hnil.mpr e, e])
            rw [if_pos ⟨hne', (validEncoded_iff _).mpr hv, (unescape_plain _ _).mpr k2⟩]
            exact ⟨_, rfl, hv, k2, fun _ => rfl, Iff.rfl⟩
          · rw [if_neg (fun h => hv ((validEncoded_iff _).mp h.2.1)), if_neg hpath]
            exact ⟨_, rfl, escapePath_chars _, escapePath_text _, fun h => absurd h hv, hnil⟩
      obtain ⟨p, hE, hp1, hp2, hp3, hp4⟩ := hE
      unfold URL.RequestURI
      simp only [hE]
      rw [if_pos k1, if_pos hvs]
      by_cases hp : p = []
      · rw [if_pos hp]
        exact ⟨[47], by simp, by unfold PathChars; decide +kernel, fun _ => rfl, fun hne => absurd (hp4.mp hp) hne⟩
      · rw [if_neg hp]
        exact ⟨p, by simp, hp1, fun e => absurd (hp4.mpr e) hp, fun _ => ⟨hp2, hp3⟩⟩
    obtain ⟨target, m1, m2, m3, m4⟩ := main _ rfl
    refine ⟨target, ?_, m2, m3, m4⟩
    rw [m1, if_neg]
    rw [Bool.not_eq_true, List.any_eq_false]
    intro c hc
    rw [Bool.not_eq_true]
    have hpc : ∀ c ∈ ascii "ABCDEFGHIJKLMNOPQRSTUVWXYZabcdefghijklmnopqrstuvwxyz0123456789-._~!$&'()*+,;=:@[]%/", Tracker.isCTL c = false := by decide +kernel
    rcases List.mem_append.mp hc with hc | hc
    · exact hpc c (m2 c hc)
    · rcases List.mem_cons.mp hc with rfl | hc
      · decide
      · exact encode_chars vs c hc
  · intro hn
    by_cases hs : ps.scheme = ascii "http" ∨ ps.scheme = ascii "https"
    · rw [if_neg (not_not_intro hs), if_pos (Classical.not_not.mp fun hh => hn ⟨hs, hh⟩)]
    · rw [if_pos hs]

/-- **C121**: a tracker whose URL has another scheme (`udp` for example) or no host is never asked: announcing ends with an error, whatever the network does. -/
theorem C121_refused (v6 : Peer.IP → Bytes) (parseIP : Bytes → Peer.IP) (net : Bool → Bytes → Bytes → Option Bytes) (spare : Bytes) (tor : Torrent.Torrent) (stats : Tracker.Stats)
    (port : UInt16) (peerId : Bytes) (ps : Parts) (f : Bytes) (h : Means tor.announce ps f)
    (hn : ¬ ((ps.scheme = ascii "http" ∨ ps.scheme = ascii "https") ∧ ps.host ≠ [] ∧ ps.host ≠ ascii ":")) :
    Tracker.Get v6 parseIP announce (send net tor.announce) spare tor stats port peerId = .err .os := by
  obtain ⟨raw, q, h1, h2, -⟩ := Tracker.request_values announce tor stats port peerId _ (noControl_of ⟨ps, f, h⟩) (announce_of h)
  unfold Tracker.Get
  rw [h1, Res.ok_bind]
  have hraw : ∃ vs, raw = Url.Encode vs := by
    unfold Tracker.newRequest at h1
    split at h1
    · cases h1
    · cases h1; exact ⟨_, rfl⟩
  obtain ⟨vs, rfl⟩ := hraw
  have hne : Url.Encode vs ≠ [] := by
    intro e
    have hnil : Query.parseQuery [] = none := by decide +kernel
    rw [e, hnil] at h2
    cases h2
  have hsend := (C121_sent net tor.announce ps f h _ ((trimmed_iff ps.host _).mp rfl) vs hne).2 ?_
  · rw [hsend]; rfl
  · rintro ⟨hs, hh⟩
    refine hn ⟨hs, ?_, ?_⟩
    · intro e; rw [e] at hh; exact hh rfl
    · intro e; rw [e] at hh; exact hh rfl

/-! ### refutations -/

theorem means_of {raw : Bytes} {u : URL} (h : Parse raw = some u) : ∃ p, Means raw ⟨u.scheme, u.opaq, u.user, u.host, u.path, p, u.rawQuery⟩ u.fragment :=
  (C121_parse raw _ _ _ _ _ _ _).mp ⟨u, h, rfl, rfl, rfl, rfl, rfl, rfl, rfl⟩

/-- **C121** refuted (parameters): a parameter with a `;` in its value, which servers read, does not reach the tracker; nor does one with a `%` that is not an escape. -/
theorem C121_refuted_dropped (tor : Torrent.Torrent) (stats : Tracker.Stats) (port : UInt16) (peerId : Bytes)
    (ha : tor.announce = ascii "http://t/a?k=1;2" ∨ tor.announce = ascii "http://t/a?k=100%") :
    IsURL tor.announce ∧ Query.parseQuery (ascii "k=1;2") = some [(ascii "k", ascii "1;2")] ∧
      ∃ raw q, Tracker.newRequest announce tor stats port peerId = .ok raw ∧ Query.parseQuery raw = some q ∧ values q (ascii "k") = [] := by
  have hM : ∃ ps f, Means tor.announce ps f ∧ parseQuery ps.query.length ps.query = [] := by
    rcases ha with ha | ha <;> rw [ha]
    · obtain ⟨p, h⟩ := means_of (raw := ascii "http://t/a?k=1;2") (u := { scheme := ascii "http", host := ascii "t", path := ascii "/a", rawQuery := ascii "k=1;2" }) (by decide +kernel)
      exact ⟨_, _, h, show parseQuery (ascii "k=1;2").length (ascii "k=1;2") = [] by decide +kernel⟩
    · obtain ⟨p, h⟩ := means_of (raw := ascii "http://t/a?k=100%") (u := { scheme := ascii "http", host := ascii "t", path := ascii "/a", rawQuery := ascii "k=100%" }) (by decide +kernel)
      exact ⟨_, _, h, show parseQuery (ascii "k=100%").length (ascii "k=100%") = [] by decide +kernel⟩
  obtain ⟨ps, f, h, hq⟩ := hM
  refine ⟨⟨ps, f, h⟩, by decide +kernel, ?_⟩
  obtain ⟨raw, q, h1, h2, h3⟩ := Tracker.request_values announce tor stats port peerId _ (noControl_of ⟨ps, f, h⟩) (announce_of h)
  refine ⟨raw, q, h1, h2, ?_⟩
  rw [h3, hq]
  have hnone : values (Tracker.announced tor.infohash (QueryEscape peerId) port.toNat stats.uploaded.toNat stats.dnloaded.toNat stats.left.toNat) (ascii "k") = [] := by
    unfold values
    rw [List.filter_eq_nil_iff.mpr]
    · rfl
    · intro p hp
      have hkey : p.1 ∈ [ascii "info_hash", ascii "peer_id", ascii "port", ascii "uploaded", ascii "downloaded", ascii "left", ascii "compact"] := by
        simp only [Tracker.announced, List.mem_cons, List.not_mem_nil, or_false] at hp ⊢
        rcases hp with rfl | rfl | rfl | rfl | rfl | rfl | rfl <;> simp only [true_or, or_true]
      exact (by decide : ∀ k ∈ [ascii "info_hash", ascii "peer_id", ascii "port", ascii "uploaded", ascii "downloaded", ascii "left", ascii "compact"], ¬ (k == ascii "k") = true) _ hkey
  rw [hnone]
  rfl

/-- **C65** refuted for texts that people write: an address with a port but without a scheme, a port that is not a number, a blank in the host, a `%` in the path. -/
theorem C65_refuted_texts (v6 : Peer.IP → Bytes) (parseIP : Bytes → Peer.IP) (http : Bytes → Option Bytes) (spare : Bytes) (tor : Torrent.Torrent) (stats : Tracker.Stats) (port : UInt16)
    (peerId : Bytes) (ha : tor.announce ∈ [ascii "10.0.0.7:6969/announce", ascii "http://t:80a/announce", ascii "http://my tracker/announce", ascii "http://t/100%/announce"]) :
    Tracker.Get v6 parseIP announce http spare tor stats port peerId = .panic := by
  rw [C65_exact_partial, ← parse_none]
  simp only [List.mem_cons, List.not_mem_nil, or_false] at ha
  rcases ha with ha | ha | ha | ha <;> rw [ha] <;> decide +kernel

/-- **C109** refuted with the real `url.Parse`: the lines (without `%`) are written by a program that serves the torrent. -/
theorem C109_refuted_fragment_parsed (ls : List Bytes) (hls : ∀ l ∈ ls, ShowSpec.OneLine l) (hpc : ∀ l ∈ ls, 37 ∉ l) (hlen : (Log.poster ls).length < 2 ^ 62) :
    ∃ file, ∀ (w : Startup.World) (port : UInt16) (id pc : Bytes), w.parseURL = announce →
        (∀ raw, ∃ resp, Tracker.doRequest w.v6 w.parseIP (w.http raw) w.spareBody = .ok resp) → ∃ fs fs' st es, fs (ascii "/t") = some file ∧
          Log.Starts false w ⟨ascii "/t", ascii "/w", port⟩ id true pc fs (.ok st) fs' es ∧ ∀ σ, Log.Initial es σ → ls <:+: ShowSpec.lines σ.stderr := by
  obtain ⟨file, an, ha, h⟩ := Log.C109_refuted_fragment ls hls hlen
  have hu : IsURL an := by
    obtain ⟨p, ps, f, t, e, h1, h2, h3, h4, h5⟩ := means_of (raw := ascii "http://t/a") (u := { scheme := ascii "http", host := ascii "t", path := ascii "/a" }) (by decide +kernel)
    have hps : ps = ascii "http://t/a" := by
      rcases h3 with ⟨rfl, -⟩ | rfl
      · rw [List.append_nil] at e; exact e.symm
      · have : (35 : UInt8) ∈ ascii "http://t/a" := by rw [e]; simp
        exact absurd this (by decide +kernel)
    subst hps
    refine ⟨_, 10 :: Log.poster ls, ascii "http://t/a", 35 :: 10 :: Log.poster ls, 10 :: Log.poster ls, ?_, h1, h2, .inr rfl, h4, ?_⟩
    · rw [ha, show ascii "http://t/a#" = ascii "http://t/a" ++ [35] by decide, List.append_assoc]; rfl
    · refine Decodes.self fun c hc => ⟨?_, trivial⟩
      rintro rfl
      rcases List.mem_cons.mp hc with hc | hc
      · cases hc
      · obtain ⟨x, hx, hc⟩ := List.mem_flatten.mp hc
        obtain ⟨l, hl, rfl⟩ := List.mem_map.mp hx
        rcases List.mem_append.mp hc with hc | hc
        · exact hpc l hl hc
        · simp at hc
  refine ⟨file, fun w port id pc hw hh => ?_⟩
  obtain ⟨fs, fs', st, es, h1, h2, -, h3⟩ := h w port id pc (by
    rw [hw]
    cases hq : announce an with
    | none => exact absurd hu (announce_none.mp hq)
    | some x => exact ⟨x, rfl⟩) hh
  exact ⟨fs, fs', st, es, h1, h2, h3⟩

/-! ### examples -/

/-- a URL with everything -/
example : ∃ p, Means (ascii "HTTP://u%41:p@[fe80::1%25en0]:80/a%20b?k=v#x%79") ⟨ascii "http", [], some (ascii "uA", some (ascii "p")), ascii "[fe80::1%en0]:80", ascii "/a b", p, ascii "k=v"⟩
    (ascii "xy") := means_of (u := { scheme := ascii "http", user := some (ascii "uA", some (ascii "p")), host := ascii "[fe80::1%en0]:80", path := ascii "/a b", rawQuery := ascii "k=v", fragment := ascii "xy" })
  (by decide +kernel)

/-- the hypotheses of `C121_kept_partial` -/
example : ∃ ps f, Means (ascii "http://t/a?k=v&l=a%26b") ps f ∧ Query.parseQuery ps.query = some [(ascii "k", ascii "v"), (ascii "l", ascii "a&b")] ∧ 59 ∉ ps.query := by
  obtain ⟨p, h⟩ := means_of (raw := ascii "http://t/a?k=v&l=a%26b") (u := { scheme := ascii "http", host := ascii "t", path := ascii "/a", rawQuery := ascii "k=v&l=a%26b" }) (by decide +kernel)
  exact ⟨_, _, h, show Query.parseQuery (ascii "k=v&l=a%26b") = _ by decide +kernel, show 59 ∉ ascii "k=v&l=a%26b" by decide +kernel⟩

/-- the hypotheses of `C121_sent`, and what it says: the path, as it is written or encoded -/
example : ∃ ps f, Means (ascii "http://t:/a b") ps f ∧ Trimmed ps.host (ascii "t") ∧ Url.Encode [(ascii "k", ascii "v")] ≠ [] ∧
    send (fun _ host target => some (host ++ target)) (ascii "http://t:/a b") (ascii "k=v") = some (ascii "t/a%20b?k=v") ∧
    send (fun _ host target => some (host ++ target)) (ascii "http://t:/a%62(c") (ascii "k=v") = some (ascii "t/a%62(c?k=v") ∧
    send (fun _ host target => some (host ++ target)) (ascii "https://t") (ascii "k=v") = some (ascii "t/?k=v") := by
  obtain ⟨p, h⟩ := means_of (raw := ascii "http://t:/a b") (u := { scheme := ascii "http", host := ascii "t:", path := ascii "/a b" , rawPath := ascii "/a b" }) (by decide +kernel)
  exact ⟨_, _, h, .inl (show ascii "t:" = ascii "t" ++ [58] by decide), by decide +kernel, by decide +kernel, by decide +kernel, by decide +kernel⟩

/-- the hypotheses of `C121_refused` -/
example : ∃ ps f, Means (ascii "udp://tracker.example.com:6969/announce") ps f ∧ ps.scheme = ascii "udp" := by
  obtain ⟨p, h⟩ := means_of (raw := ascii "udp://tracker.example.com:6969/announce")
    (u := { scheme := ascii "udp", host := ascii "tracker.example.com:6969", path := ascii "/announce" }) (by decide +kernel)
  exact ⟨_, _, h, rfl⟩

/-- a host name and a port without `http://` are a scheme and something opaque: accepted, and refused when it comes to sending -/
example : ∃ ps f, Means (ascii "tracker.example.com:6969/announce") ps f ∧ ps.scheme = ascii "tracker.example.com" ∧ ps.host = [] := by
  obtain ⟨p, h⟩ := means_of (raw := ascii "tracker.example.com:6969/announce") (u := { scheme := ascii "tracker.example.com", opaq := ascii "6969/announce" }) (by decide +kernel)
  exact ⟨_, _, h, rfl, rfl⟩

/-- the hypotheses of `C109_refuted_fragment_parsed` -/
example : (∀ l ∈ [ascii "2009/11/10 23:00:00 all is well"], ShowSpec.OneLine l) ∧ ∀ l ∈ [ascii "2009/11/10 23:00:00 all is well"], 37 ∉ l := by decide +kernel

/-- texts that are not URLs -/
example : ¬ IsURL (ascii "http://t/a%2") ∧ ¬ IsURL (ascii "http://[::1/a") ∧ ¬ IsURL (ascii "http://t\n/") ∧ ¬ IsURL (ascii "://t/a") := by
  simp only [← parse_none]
  decide +kernel

end Verif.UrlParse
