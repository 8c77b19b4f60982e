import Verif.Model.Announce
import Verif.Props.Body
import Verif.Props.Redirect
import Verif.Props.UrlParse
/-
C129: a whole announcement, over connections.
-/
set_option autoImplicit false

namespace Verif.Announce
open Verif.Bencode Verif.UrlParse Verif.UrlSpec Verif.Redirect Verif.RedirectSpec Verif.Body Verif.BodySpec Verif.Tracker Verif.Peer Verif.Torrent

/-- the connection brings the whole body `b`, sent as the head says; if that is up to the end of the connection, the connection is closed behind it -/
def Whole (mime : Bytes → Bool) (h : Head) (data : Bytes) (e : End) (b : Bytes) : Prop :=
  ∃ w more, data = w ++ more ∧ Sent mime (framing h) b w ∧ (framing h = .close → e = .eof ∧ more = [])

/-- the head answers the request: not too many informational ones in front, and it does not redirect -/
def Answers (info : Nat) (h : Head) (loc : Bytes) : Prop := info ≤ 5 ∧ Final ⟨h.status, loc, []⟩

/-- the head redirects the request to `loc` -/
def Redirects (info : Nat) (h : Head) (loc : Bytes) : Prop := info ≤ 5 ∧ Redirecting h.status ∧ loc ≠ []

/-- the client waits for ever after this reply: nothing comes; or an answer or a redirection is incomplete, and nothing more comes.  Of a redirection 2048 bytes are enough, and none are needed
if it has more. -/
def Hangs (mime : Bytes → Bool) : Reply → Prop
  | .refused => False
  | .mute => True
  | .head info h loc data e => e = .silent ∧ (∀ b, ¬ Whole mime h data e b) ∧
      (Answers info h loc ∨ Redirects info h loc ∧ (framing h = .close → data.length < 2048) ∧ ∀ n, framing h = .length n → n ≤ 2048)

/-- a redirection without its end, so small that the client waits for the rest -/
def Small (h : Head) (data : Bytes) : Prop := (∃ n, framing h = .length n ∧ data.length < n ∧ n ≤ 2048) ∨ framing h = .close ∧ data.length < 2048

theorem small_stalls {h : Head} {data : Bytes} (hs : Small h data) (mime : Bytes → Bool) (may : Bool) : stalls mime may h data .silent = true := by
  unfold stalls
  rcases hs with ⟨n, h1, h2, h3⟩ | ⟨h1, h2⟩
  · rw [h1]; simp [h2, h3]
  · rw [h1]; simp [h2]

/-- what `Redirect.send` (C124) knows of a reply: the status, the location and, if it matters, the body -/
def Seen (mime : Bytes → Bool) : Reply → Option Answer → Prop
  | .refused, o => o = none
  | .mute, o => o = none
  | .head info h loc data e, o =>
    (5 < info ∧ o = none) ∨
    (info ≤ 5 ∧ ¬ Final ⟨h.status, loc, []⟩ ∧ ∃ b, o = some ⟨h.status, loc, b⟩) ∨
    (info ≤ 5 ∧ Final ⟨h.status, loc, []⟩ ∧ ((∃ b, Whole mime h data e b ∧ o = some ⟨h.status, loc, b⟩) ∨ (∀ b, ¬ Whole mime h data e b) ∧ o = none))

theorem whole_iff (mime : Bytes → Bool) (h : Head) (data : Bytes) (e : End) (b : Bytes) : readBody mime (framing h) data e = .body b ↔ Whole mime h data e b := by
  unfold Whole
  by_cases hf : framing h = .close
  · rw [hf, C126_close_iff]
    constructor
    · rintro ⟨rfl, rfl⟩
      exact ⟨data, [], (List.append_nil _).symm, rfl, fun _ => ⟨rfl, rfl⟩⟩
    · rintro ⟨w, more, rfl, hs, hc⟩
      obtain ⟨rfl, rfl⟩ := hc rfl
      exact ⟨rfl, by rw [List.append_nil]; exact hs⟩
  · rw [C126_body_iff mime _ hf]
    exact ⟨fun ⟨w, more, h1, h2⟩ => ⟨w, more, h1, h2, fun h => absurd h hf⟩, fun ⟨w, more, h1, h2, _⟩ => ⟨w, more, h1, h2⟩⟩

theorem final_body (s : Nat) (loc b b' : Bytes) : Final ⟨s, loc, b⟩ ↔ Final ⟨s, loc, b'⟩ := Iff.rfl

/-- there is always something to know -/
theorem seen_exists (mime : Bytes → Bool) (r : Reply) : ∃ o, Seen mime r o := by
  cases r with
  | refused => exact ⟨none, rfl⟩
  | mute => exact ⟨none, rfl⟩
  | head info h loc data e =>
    by_cases hi : 5 < info
    · exact ⟨none, .inl ⟨hi, rfl⟩⟩
    · have hi' : info ≤ 5 := by omega
      by_cases hf : Final ⟨h.status, loc, []⟩
      · by_cases hw : ∃ b, Whole mime h data e b
        · obtain ⟨b, hb⟩ := hw
          exact ⟨_, .inr (.inr ⟨hi', hf, .inl ⟨b, hb, rfl⟩⟩)⟩
        · exact ⟨_, .inr (.inr ⟨hi', hf, .inr ⟨fun b hb => hw ⟨b, hb⟩, rfl⟩⟩)⟩
      · exact ⟨_, .inr (.inl ⟨hi', hf, [], rfl⟩)⟩

/-- what the results of `Redirect.run` are -/
def bodyOf : Got → Option Bytes
  | .body b => some b
  | _ => none

theorem run_seen (mime : Bytes → Bool) (may : Nat → Bool) (net : Nat → Hop → Reply) (net' : Nat → Hop → Option Answer) (hs : ∀ i hop, Seen mime (net i hop) (net' i hop)) :
    ∀ n i p, (run mime may net n i p).1 <+: (Redirect.run net' n i p).1 ∧
      ((run mime may net n i p).2 ≠ .waiting → (run mime may net n i p).1 = (Redirect.run net' n i p).1 ∧ (Redirect.run net' n i p).2 = bodyOf (run mime may net n i p).2) := by
  intro n
  induction n with
  | zero => intro i p; exact ⟨List.prefix_refl _, fun _ => ⟨rfl, rfl⟩⟩
  | succ n ih =>
    intro i p
    rw [run, Redirect.run]
    cases hc : p.check with
    | none => exact ⟨List.prefix_refl _, fun _ => ⟨rfl, rfl⟩⟩
    | some hop =>
      have h := hs i hop
      simp only []
      cases hr : net i hop with
      | refused =>
        rw [hr] at h
        have h : net' i hop = none := h
        rw [h]
        exact ⟨List.prefix_refl _, fun _ => ⟨rfl, rfl⟩⟩
      | mute =>
        rw [hr] at h
        have h : net' i hop = none := h
        rw [h]
        exact ⟨List.prefix_refl _, fun h => absurd rfl h⟩
      | head info hd loc data e =>
        rw [hr] at h
        simp only []
        rcases h with ⟨h1, h2⟩ | ⟨h1, h2, b, h3⟩ | ⟨h1, h2, h3⟩
        · rw [h2, if_pos h1]
          exact ⟨List.prefix_refl _, fun _ => ⟨rfl, rfl⟩⟩
        · rw [if_neg (by omega), h3]
          simp only []
          rw [if_neg (fun hh => h2 ((follows_iff _).mp hh)), if_neg (fun hh => h2 ((follows_iff ⟨hd.status, loc, b⟩).mp hh))]
          by_cases hl : loc = []
          · rw [if_pos hl, if_pos hl]
            exact ⟨List.prefix_refl _, fun _ => ⟨rfl, rfl⟩⟩
          · rw [if_neg hl, if_neg hl]
            cases hn : p.next loc with
            | none => exact ⟨List.prefix_refl _, fun _ => ⟨rfl, rfl⟩⟩
            | some q =>
              simp only []
              split
              · exact ⟨⟨_, rfl⟩, fun h => absurd rfl h⟩
              · obtain ⟨i1, i2⟩ := ih (i + 1) q
                refine ⟨?_, fun hw => ?_⟩
                · exact (List.prefix_cons_inj hop).mpr i1
                · obtain ⟨i3, i4⟩ := i2 hw
                  exact ⟨congrArg (hop :: ·) i3, i4⟩
        · rw [if_neg (by omega), if_pos ((follows_iff _).mpr h2)]
          rcases h3 with ⟨b, hb, h4⟩ | ⟨hb, h4⟩
          · rw [h4, (whole_iff ..).mpr hb]
            simp only []
            rw [if_pos ((follows_iff ⟨hd.status, loc, b⟩).mpr h2)]
            exact ⟨List.prefix_refl _, fun _ => ⟨rfl, rfl⟩⟩
          · rw [h4]
            refine ⟨List.prefix_refl _, fun _ => ⟨rfl, ?_⟩⟩
            simp only []
            cases hg : readBody mime (framing hd) data e with
            | body b => exact absurd ((whole_iff ..).mp hg) (hb b)
            | failed => rfl
            | waiting => rfl

theorem waiting_silent {mime : Bytes → Bool} {h : Head} {data : Bytes} {e : End} (hw : readBody mime (framing h) data e = .waiting) : e = .silent := by
  by_cases he : e = .silent
  · exact he
  · rcases C126_waits (fun _ => []) (fun _ => []) mime h data e he [] with ⟨r, hr⟩ | ⟨x, hx⟩
    · unfold answer at hr; rw [hw] at hr; cases hr
    · unfold answer at hx; rw [hw] at hx; cases hx

theorem stalls_hangs {mime : Bytes → Bool} {may : Bool} {h : Head} {data : Bytes} {e : End} (hs : stalls mime may h data e = true) :
    e = .silent ∧ (∀ b, ¬ Whole mime h data e b) ∧ (framing h = .close → data.length < 2048) ∧ ∀ n, framing h = .length n → n ≤ 2048 := by
  unfold stalls at hs
  cases hf : framing h with
  | length n =>
    rw [hf] at hs
    simp only [Bool.and_eq_true, decide_eq_true_eq] at hs
    obtain ⟨⟨h1, h2⟩, rfl⟩ := hs
    refine ⟨rfl, ?_, nofun, fun m hm => by cases hm; exact h1⟩
    rintro b ⟨w, more, rfl, hs, -⟩
    rw [hf] at hs
    obtain ⟨rfl, rfl⟩ := hs
    rw [List.length_append] at h2
    omega
  | close =>
    rw [hf] at hs
    simp only [Bool.and_eq_true, decide_eq_true_eq] at hs
    obtain ⟨h1, rfl⟩ := hs
    refine ⟨rfl, ?_, fun _ => h1, nofun⟩
    rintro b ⟨w, more, -, -, hc⟩
    cases (hc hf).1
  | chunked =>
    rw [hf] at hs
    simp only [Bool.and_eq_true, decide_eq_true_eq] at hs
    have hw : readBody mime (framing h) data e = .waiting := by rw [hf]; exact hs.2
    refine ⟨waiting_silent hw, ?_, nofun, nofun⟩
    intro b hb
    rw [(whole_iff ..).mpr hb] at hw
    cases hw

/-- the last request decides -/
theorem run_last (mime : Bytes → Bool) (may : Nat → Bool) (net : Nat → Hop → Reply) : ∀ n i p,
    ((run mime may net n i p).1 = [] → (run mime may net n i p).2 = .failed) ∧
    ∀ hop, (run mime may net n i p).1.getLast? = some hop →
      (∀ b, (run mime may net n i p).2 = .body b ↔
        ∃ info h loc data e, net (i + ((run mime may net n i p).1.length - 1)) hop = .head info h loc data e ∧ Answers info h loc ∧ Whole mime h data e b) ∧
      ((run mime may net n i p).2 = .waiting → Hangs mime (net (i + ((run mime may net n i p).1.length - 1)) hop)) ∧
      (net (i + ((run mime may net n i p).1.length - 1)) hop = .mute → (run mime may net n i p).2 = .waiting) ∧
      (∀ info h loc data e b w q, net (i + ((run mime may net n i p).1.length - 1)) hop = .head info h loc data e → Answers info h loc → e = .silent → Sent mime (framing h) b w →
        w = data ++ q → q ≠ [] → (run mime may net n i p).2 = .waiting) ∧
      (∀ info h loc data, net (i + ((run mime may net n i p).1.length - 1)) hop = .head info h loc data .silent → Redirects info h loc → IsURL loc → Small h data →
        (run mime may net n i p).2 = .waiting) := by
  intro n
  induction n with
  | zero => intro i p; exact ⟨fun _ => rfl, nofun⟩
  | succ n ih =>
    intro i p
    rw [run]
    cases hc : p.check with
    | none => exact ⟨fun _ => rfl, nofun⟩
    | some h0 =>
      simp only []
      cases hr : net i h0 with
      | refused =>
        refine ⟨nofun, fun hop hl => ?_⟩
        obtain rfl : h0 = hop := Option.some.inj hl
        simp only [List.length_singleton, Nat.sub_self, Nat.add_zero, hr]
        refine ⟨fun b => ⟨nofun, ?_⟩, nofun, nofun, (fun _ _ _ _ _ _ _ _ h => nomatch h), fun _ _ _ _ h => nomatch h⟩
        rintro ⟨info, h, loc, data, e, h1, -⟩
        cases h1
      | mute =>
        refine ⟨nofun, fun hop hl => ?_⟩
        obtain rfl : h0 = hop := Option.some.inj hl
        simp only [List.length_singleton, Nat.sub_self, Nat.add_zero, hr]
        refine ⟨fun b => ⟨nofun, ?_⟩, fun _ => trivial, fun _ => trivial, (fun _ _ _ _ _ _ _ _ h => nomatch h), fun _ _ _ _ h => nomatch h⟩
        rintro ⟨info, h, loc, data, e, h1, -⟩
        cases h1
      | head info hd loc data e =>
        simp only []
        by_cases hi : 5 < info
        · rw [if_pos hi]
          refine ⟨nofun, fun hop hl => ?_⟩
          obtain rfl : h0 = hop := Option.some.inj hl
          simp only [List.length_singleton, Nat.sub_self, Nat.add_zero, hr]
          refine ⟨fun b => ⟨nofun, ?_⟩, nofun, nofun, ?_, ?_⟩
          · rintro ⟨info', h, loc', data', e', h1, ⟨h2, -⟩, -⟩
            cases h1
            omega
          · intro info' h loc' data' e' b w q h1 ⟨h2, _⟩
            cases h1
            omega
          · intro info' h loc' data' h1 ⟨h2, _⟩
            cases h1
            omega
        · rw [if_neg hi]
          have hi : info ≤ 5 := by omega
          by_cases hf : Final ⟨hd.status, loc, []⟩
          · rw [if_pos ((follows_iff _).mpr hf)]
            refine ⟨nofun, fun hop hl => ?_⟩
            obtain rfl : h0 = hop := Option.some.inj hl
            simp only [List.length_singleton, Nat.sub_self, Nat.add_zero, hr]
            refine ⟨fun b => ?_, fun hw => ?_, nofun, ?_, ?_⟩
            · rw [whole_iff]
              constructor
              · intro hb
                exact ⟨info, hd, loc, data, e, rfl, ⟨hi, hf⟩, hb⟩
              · rintro ⟨info', h, loc', data', e', h1, -, h3⟩
                cases h1
                exact h3
            · refine ⟨waiting_silent hw, ?_, .inl ⟨hi, hf⟩⟩
              intro b hb
              rw [(whole_iff ..).mpr hb] at hw
              cases hw
            · intro info' h loc' data' e' b w q h1 _ he hs hw hq
              cases h1
              subst he
              have := C126_refuted_silent (fun _ => []) (fun _ => []) mime hd b w data q hs hw hq []
              unfold answer at this
              cases hg : readBody mime (framing hd) data .silent with
              | waiting => rfl
              | failed => rw [hg] at this; cases this
              | body b =>
                rw [hg] at this
                simp only [] at this
                rcases C37_no_panic (fun _ => []) (fun _ => []) (some b) [] with ⟨r, hr⟩ | ⟨x, hx⟩
                · rw [hr] at this; cases this
                · rw [hx] at this; cases this
            · intro info' h loc' data' h1 ⟨_, h2, h3⟩
              cases h1
              rcases hf with hf | ⟨-, hf⟩
              · exact absurd h2 hf
              · exact absurd hf h3
          · rw [if_neg (fun hh => hf ((follows_iff _).mp hh))]
            have here : ∀ g : Got, (∀ b, g ≠ .body b) → (g = .waiting → Hangs mime (.head info hd loc data e)) →
                (loc ≠ [] → IsURL loc → Small hd data → e = .silent → g = .waiting) →
                (([h0], g).1 = [] → ([h0], g).2 = .failed) ∧ ∀ hop, ([h0], g).1.getLast? = some hop →
                  (∀ b, ([h0], g).2 = .body b ↔ ∃ info h loc data e, net (i + (([h0], g).1.length - 1)) hop = .head info h loc data e ∧ Answers info h loc ∧ Whole mime h data e b) ∧
                  (([h0], g).2 = .waiting → Hangs mime (net (i + (([h0], g).1.length - 1)) hop)) ∧
                  (net (i + (([h0], g).1.length - 1)) hop = .mute → ([h0], g).2 = .waiting) ∧
                  (∀ info h loc data e b w q, net (i + (([h0], g).1.length - 1)) hop = .head info h loc data e → Answers info h loc → e = .silent → Sent mime (framing h) b w →
                    w = data ++ q → q ≠ [] → ([h0], g).2 = .waiting) ∧
                  (∀ info h loc data, net (i + (([h0], g).1.length - 1)) hop = .head info h loc data .silent → Redirects info h loc → IsURL loc → Small h data →
                    ([h0], g).2 = .waiting) := by
              intro g hg hw hst
              refine ⟨nofun, fun hop hl => ?_⟩
              obtain rfl : h0 = hop := Option.some.inj hl
              simp only [List.length_singleton, Nat.sub_self, Nat.add_zero, hr]
              refine ⟨fun b => ⟨fun h => absurd h (hg b), ?_⟩, hw, nofun, ?_, ?_⟩
              · rintro ⟨info', h, loc', data', e', h1, ⟨-, h2⟩, -⟩
                cases h1
                exact absurd h2 hf
              · intro info' h loc' data' e' b w q h1 ⟨_, h2⟩
                cases h1
                exact absurd h2 hf
              · intro info' h loc' data' h1 ⟨_, _, h3⟩ h4 h5
                cases h1
                exact hst h3 h4 h5 rfl
            by_cases hl : loc = []
            · rw [if_pos hl]
              exact here .failed nofun nofun fun h => absurd hl h
            · rw [if_neg hl]
              cases hn : p.next loc with
              | none =>
                refine here .failed nofun nofun fun _ hurl => ?_
                unfold Place.next at hn
                obtain ⟨ps, f, hm⟩ := hurl
                rw [Means.parse hm] at hn
                cases hn
              | some q =>
                simp only []
                by_cases hst : stalls mime (may i) hd data e = true
                · rw [if_pos hst]
                  refine here .waiting nofun (fun _ => ?_) fun _ _ _ _ => rfl
                  obtain ⟨k1, k2, k3, k4⟩ := stalls_hangs hst
                  refine ⟨k1, k2, .inr ⟨⟨hi, ?_, hl⟩, k3, k4⟩⟩
                  exact Classical.byContradiction fun hh => hf (.inl hh)
                · rw [if_neg hst]
                  obtain ⟨i1, i2⟩ := ih (i + 1) q
                  refine ⟨nofun, fun hop hlast => ?_⟩
                  simp only [] at hlast
                  cases hq : (run mime may net n (i + 1) q).1 with
                  | nil =>
                    rw [hq] at hlast
                    have := here .failed nofun nofun fun _ _ hsm he => by subst he; exact absurd (small_stalls hsm mime (may i)) hst
                    rw [i1 hq]
                    exact this.2 hop hlast
                  | cons h1 t =>
                    rw [hq] at hlast i2
                    have hl' : (h1 :: t).getLast? = some hop := by rw [← hlast]; simp [List.getLast?_cons]
                    have := i2 hop hl'
                    rw [show i + 1 + ((h1 :: t).length - 1) = i + ((h0 :: h1 :: t).length - 1) by simp; omega] at this
                    exact this

theorem newRequest_some {raw : Bytes} {u : URL} (h : NewRequest raw = some u) : IsURL raw ∧ announce raw = some u.Query := by
  have ha : announce raw = some u.Query := by unfold announce; rw [h]; rfl
  refine ⟨Classical.byContradiction fun hn => ?_, ha⟩
  rw [announce_none.mpr hn] at ha
  cases ha

theorem query_eq {tor : Torrent} {u : URL} (h : NewRequest tor.announce = some u) (stats : Stats) (port : UInt16) (peerId : Bytes) :
    Tracker.newRequest announce tor stats port peerId = .ok (query u tor stats port peerId) := by
  obtain ⟨h1, h2⟩ := newRequest_some h
  unfold Tracker.newRequest
  rw [(parseAnnounce_iff announce tor.announce u.Query).mpr ⟨noControl_of h1, h2⟩]
  rfl

theorem get_some (v6 : IP → Bytes) (parseIP : Bytes → IP) (mime : Bytes → Bool) (may : Nat → Bool) (net : Nat → Hop → Reply) (spare : Bytes) {tor : Torrent} {u : URL}
    (h : NewRequest tor.announce = some u) (stats : Stats) (port : UInt16) (peerId : Bytes) :
    ∃ R, R = run mime may net 10 0 ⟨{ u with rawQuery := query u tor stats port peerId }, forced tor.announce⟩ ∧
      Get v6 parseIP mime may net spare tor stats port peerId = (R.1, match R.2 with
        | .body b => doRequest v6 parseIP (some b) spare
        | .failed => doRequest v6 parseIP none spare
        | .waiting => .timeout) := by
  refine ⟨_, rfl, ?_⟩
  unfold Get
  rw [h]
  rfl

/-- the examples: a torrent, and a tracker that redirects it with a short body and then answers in two chunks -/
def exampleTor : Torrent := ⟨ascii "aaaaaaaaaaaaaaaaaaaa", ascii "http://a.org/t?k=1", ⟨ascii "x", 1, [], 0, 0, [], true, [], 0⟩⟩

def exampleNet (cut : Nat) (e : End) (i : Nat) (_ : Hop) : Reply :=
  if i = 0 then .head 1 ⟨302, false, some 5⟩ (ascii "//b.org/../u") ((ascii "moved").take cut) e
  else .head 0 ⟨200, true, none⟩ [] (ascii "1a\r\nd8:completei1e10:incomplet\r\n1B;x\r\nei2e8:intervali9e5:peers0:e\r\n0\r\n\r\nrest") .silent

def exampleGet (cut : Nat) (e : End) : List Hop × Res Response :=
  Get (fun _ => []) (fun _ => []) (fun _ => true) (fun _ => true) (exampleNet cut e) [] exampleTor (NewStats 0 0 0) 60666 (ascii "-GT0000-aaaaaaaaaaaa")

/-- **C129**, the requests of an announcement: at most ten, each but the first caused by a redirection that answers the one before, to where C124 says; the first is that of C121, with the
parameters of C38. -/
theorem C129_requests (v6 : IP → Bytes) (parseIP : Bytes → IP) (mime : Bytes → Bool) (may : Nat → Bool) (net : Nat → Hop → Reply) (spare : Bytes) (tor : Torrent) (stats : Stats)
    (port : UInt16) (peerId : Bytes) :
    (Get v6 parseIP mime may net spare tor stats port peerId).1.length ≤ 10 ∧
    (∀ j a b, (Get v6 parseIP mime may net spare tor stats port peerId).1[j]? = some a → (Get v6 parseIP mime may net spare tor stats port peerId).1[j + 1]? = some b →
      ∃ info h loc data e, net j a = .head info h loc data e ∧ Redirects info h loc ∧ Next a.tls a.host a.target loc b.tls b.host b.target) ∧
    ∀ net' q, Tracker.newRequest announce tor stats port peerId = .ok q →
      UrlParse.send net' tor.announce q = (Get v6 parseIP mime may net spare tor stats port peerId).1.head?.bind fun h => net' h.tls h.host h.target := by
  cases hu : NewRequest tor.announce with
  | none =>
    have hg : Get v6 parseIP mime may net spare tor stats port peerId = ([], .panic) := by unfold Get; rw [hu]
    rw [hg]
    refine ⟨Nat.zero_le _, nofun, fun net' q _ => ?_⟩
    unfold UrlParse.send
    rw [hu]
    rfl
  | some u =>
    obtain ⟨R, hR, hg⟩ := get_some v6 parseIP mime may net spare hu stats port peerId
    rw [hg]
    have hex : ∃ net' : Nat → Hop → Option Answer, ∀ i hop, Seen mime (net i hop) (net' i hop) :=
      ⟨fun i hop => Classical.choose (seen_exists mime (net i hop)), fun i hop => Classical.choose_spec (seen_exists mime (net i hop))⟩
    obtain ⟨snet, hs⟩ := hex
    have hne : query u tor stats port peerId ≠ [] := by
      obtain ⟨raw, q, h1, h2, -⟩ := request_values announce tor stats port peerId _ (noControl_of (newRequest_some hu).1) (newRequest_some hu).2
      rw [query_eq hu] at h1
      cases h1
      intro e
      have hnil : Query.parseQuery [] = none := by decide +kernel
      rw [e, hnil] at h2
      cases h2
    obtain ⟨hp, hw⟩ := run_seen mime may net snet hs 10 0 ⟨{ u with rawQuery := query u tor stats port peerId }, forced tor.announce⟩
    rw [← hR] at hp hw
    have hreq : Redirect.requests snet tor.announce (query u tor stats port peerId) =
        Redirect.run snet 10 0 ⟨{ u with rawQuery := query u tor stats port peerId }, forced tor.announce⟩ := by
      unfold Redirect.requests
      rw [hu]
    rw [← hreq] at hp hw
    obtain ⟨hc, hfirst⟩ := C124_followed_partial snet tor.announce (announceValues u.Query tor.infohash stats port peerId) hne
    have hget : ∀ (j : Nat) (x : Hop), R.1[j]? = some x → (Redirect.requests snet tor.announce (query u tor stats port peerId)).1[j]? = some x := by
      intro j x hx
      obtain ⟨t, ht⟩ := hp
      rw [← ht, List.getElem?_append_left (by
        have := List.getElem?_eq_some_iff.mp hx
        exact this.1)]
      exact hx
    refine ⟨Nat.le_trans hp.length_le hc.atMost, ?_, ?_⟩
    · intro j a b ha hb
      obtain ⟨x, hx, h1, h2, h3⟩ := hc.caused j a b (hget j a ha) (hget _ b hb)
      rw [Nat.zero_add] at hx
      have hsj := hs j a
      rw [hx] at hsj
      cases hn : net j a with
      | refused => rw [hn] at hsj; cases hsj
      | mute => rw [hn] at hsj; cases hsj
      | head info h loc data e =>
        rw [hn] at hsj
        rcases hsj with ⟨-, k⟩ | ⟨k1, -, b', k⟩ | ⟨k1, k2, ⟨b', -, k⟩ | ⟨-, k⟩⟩
        · cases k
        · cases k
          exact ⟨info, h, _, data, e, rfl, ⟨k1, h1, h2⟩, h3⟩
        · cases k
          exact ⟨info, h, _, data, e, rfl, ⟨k1, h1, h2⟩, h3⟩
        · cases k
    · intro net' q hq
      rw [query_eq hu] at hq
      cases hq
      rw [show query u tor stats port peerId = Url.Encode (announceValues u.Query tor.infohash stats port peerId) from rfl, hfirst net']
      have : ∀ l l' : List Hop, l <+: l' → (l = [] → l' = []) → l'.head? = l.head? := by
        rintro l l' ⟨t, rfl⟩ h
        cases l with
        | nil => rw [h rfl]
        | cons _ _ => rfl
      rw [show (Redirect.requests snet tor.announce (Url.Encode (announceValues u.Query tor.infohash stats port peerId))).1.head? = R.1.head? from
        this _ _ hp fun he => by
          have := (run_last mime may net 10 0 ⟨{ u with rawQuery := query u tor stats port peerId }, forced tor.announce⟩).1 (by rw [← hR]; exact he)
          rw [← hR] at this
          exact (hw (by rw [this]; nofun)).1.symm.trans he]

/-- two requests -/
example : (exampleGet 5 .silent).1.map (fun h => (h.tls, h.host, h.target.take 11)) = [(false, ascii "a.org", ascii "/t?compact="), (false, ascii "b.org", ascii "/u")] := by decide +kernel

/-- **C129**, exactly when an announcement brings a response: if the last request is answered by a whole answer (not a redirection) with this response in its body. -/
theorem C129_response_iff (v6 : IP → Bytes) (parseIP : Bytes → IP) (mime : Bytes → Bool) (may : Nat → Bool) (net : Nat → Hop → Reply) (spare : Bytes) (tor : Torrent) (stats : Stats)
    (port : UInt16) (peerId : Bytes) (r : Response) :
    (Get v6 parseIP mime may net spare tor stats port peerId).2 = .ok r ↔
      ∃ hop info h loc data e b, (Get v6 parseIP mime may net spare tor stats port peerId).1.getLast? = some hop ∧
        net ((Get v6 parseIP mime may net spare tor stats port peerId).1.length - 1) hop = .head info h loc data e ∧ Answers info h loc ∧ Whole mime h data e b ∧
        doRequest v6 parseIP (some b) spare = .ok r := by
  cases hu : NewRequest tor.announce with
  | none =>
    have hg : Get v6 parseIP mime may net spare tor stats port peerId = ([], .panic) := by unfold Get; rw [hu]
    rw [hg]
    constructor
    · nofun
    · rintro ⟨hop, info, h, loc, data, e, b, h1, -⟩
      cases h1
  | some u =>
    obtain ⟨R, hR, hg⟩ := get_some v6 parseIP mime may net spare hu stats port peerId
    rw [hg]
    obtain ⟨l1, l2⟩ := run_last mime may net 10 0 ⟨{ u with rawQuery := query u tor stats port peerId }, forced tor.announce⟩
    rw [← hR] at l1 l2
    simp only [Nat.zero_add] at l2
    simp only []
    constructor
    · intro h
      cases hr : R.2 with
      | failed => rw [hr] at h; cases h
      | waiting => rw [hr] at h; cases h
      | body b =>
        rw [hr] at h
        cases hl : R.1.getLast? with
        | none => rw [l1 (List.getLast?_eq_none_iff.mp hl)] at hr; cases hr
        | some hop =>
          obtain ⟨info, hd, loc, data, e, k1, k2, k3⟩ := ((l2 hop hl).1 b).mp hr
          exact ⟨hop, info, hd, loc, data, e, b, rfl, k1, k2, k3, h⟩
    · rintro ⟨hop, info, hd, loc, data, e, b, hl, k1, k2, k3, h⟩
      rw [((l2 hop hl).1 b).mpr ⟨info, hd, loc, data, e, k1, k2, k3⟩]
      exact h

/-- a response, although the connections stay open -/
example : (exampleGet 5 .silent).2 = .ok ⟨⟨9, 0, [], [], 1, 2⟩, []⟩ ∧ (exampleGet 5 .silent).1.length = 2 := by decide +kernel

/-- **C129**, exactly when announcing panics: if the announce URL of the torrent file is not a URL. -/
theorem C129_panic_iff (v6 : IP → Bytes) (parseIP : Bytes → IP) (mime : Bytes → Bool) (may : Nat → Bool) (net : Nat → Hop → Reply) (spare : Bytes) (tor : Torrent) (stats : Stats)
    (port : UInt16) (peerId : Bytes) : (Get v6 parseIP mime may net spare tor stats port peerId).2 = .panic ↔ ¬ IsURL tor.announce := by
  cases hu : NewRequest tor.announce with
  | none =>
    have hg : Get v6 parseIP mime may net spare tor stats port peerId = ([], .panic) := by unfold Get; rw [hu]
    rw [hg]
    have : announce tor.announce = none := by unfold announce; rw [hu]; rfl
    exact ⟨fun _ => announce_none.mp this, fun _ => rfl⟩
  | some u =>
    obtain ⟨R, hR, hg⟩ := get_some v6 parseIP mime may net spare hu stats port peerId
    rw [hg]
    refine ⟨fun h => ?_, fun h => absurd (newRequest_some hu).1 h⟩
    simp only [] at h
    cases hr : R.2 with
    | waiting => rw [hr] at h; cases h
    | failed => rw [hr] at h; cases h
    | body b =>
      rw [hr] at h
      rcases C37_no_panic v6 parseIP (some b) spare with ⟨r, k⟩ | ⟨x, k⟩
      · simp only [] at h; rw [k] at h; cases h
      · simp only [] at h; rw [k] at h; cases h

example : ¬ IsURL (ascii "http://a:b/") := announce_none.mp (by decide +kernel)

example : (Get (fun _ => []) (fun _ => []) (fun _ => true) (fun _ => true) (exampleNet 5 .eof) [] { exampleTor with announce := ascii "http://a:b/" } (NewStats 0 0 0) 1 []).2 = .panic := by
  decide +kernel

/-- **C129**, when announcing does not come to an end: only if the last request brings nothing, or an incomplete answer or redirection (of which less than 2048 bytes came), and then nothing more. -/
theorem C129_waits (v6 : IP → Bytes) (parseIP : Bytes → IP) (mime : Bytes → Bool) (may : Nat → Bool) (net : Nat → Hop → Reply) (spare : Bytes) (tor : Torrent) (stats : Stats)
    (port : UInt16) (peerId : Bytes) (h : (Get v6 parseIP mime may net spare tor stats port peerId).2 = .timeout) :
    ∃ hop, (Get v6 parseIP mime may net spare tor stats port peerId).1.getLast? = some hop ∧
      Hangs mime (net ((Get v6 parseIP mime may net spare tor stats port peerId).1.length - 1) hop) := by
  cases hu : NewRequest tor.announce with
  | none =>
    have hg : Get v6 parseIP mime may net spare tor stats port peerId = ([], .panic) := by unfold Get; rw [hu]
    rw [hg] at h
    cases h
  | some u =>
    obtain ⟨R, hR, hg⟩ := get_some v6 parseIP mime may net spare hu stats port peerId
    rw [hg] at h ⊢
    obtain ⟨l1, l2⟩ := run_last mime may net 10 0 ⟨{ u with rawQuery := query u tor stats port peerId }, forced tor.announce⟩
    rw [← hR] at l1 l2
    simp only [Nat.zero_add] at l2
    simp only [] at h ⊢
    have hw : R.2 = .waiting := by
      cases hr : R.2 with
      | waiting => rfl
      | failed => rw [hr] at h; cases h
      | body b =>
        rw [hr] at h
        rcases C37_no_panic v6 parseIP (some b) spare with ⟨r, k⟩ | ⟨x, k⟩
        · simp only [] at h; rw [k] at h; cases h
        · simp only [] at h; rw [k] at h; cases h
    cases hl : R.1.getLast? with
    | none => rw [l1 (List.getLast?_eq_none_iff.mp hl)] at hw; cases hw
    | some hop => exact ⟨hop, rfl, (l2 hop hl).2.1 hw⟩

example : (exampleGet 4 .silent).2 = .timeout := by decide +kernel

/-- **C129** refuted, the end: if the last request brings nothing at all, or a proper part of an answer and then nothing, or a part of a small redirection (which need not be read at all) and
then nothing, the client waits for ever. -/
theorem C129_refuted_silent (v6 : IP → Bytes) (parseIP : Bytes → IP) (mime : Bytes → Bool) (may : Nat → Bool) (net : Nat → Hop → Reply) (spare : Bytes) (tor : Torrent) (stats : Stats)
    (port : UInt16) (peerId : Bytes) (hop : Hop) (hl : (Get v6 parseIP mime may net spare tor stats port peerId).1.getLast? = some hop)
    (hn : net ((Get v6 parseIP mime may net spare tor stats port peerId).1.length - 1) hop = .mute ∨
      (∃ info h loc data b w q, net ((Get v6 parseIP mime may net spare tor stats port peerId).1.length - 1) hop = .head info h loc data .silent ∧ Answers info h loc ∧
        Sent mime (framing h) b w ∧ w = data ++ q ∧ q ≠ []) ∨
      ∃ info h loc data, net ((Get v6 parseIP mime may net spare tor stats port peerId).1.length - 1) hop = .head info h loc data .silent ∧ Redirects info h loc ∧ IsURL loc ∧
        Small h data) :
    (Get v6 parseIP mime may net spare tor stats port peerId).2 = .timeout := by
  cases hu : NewRequest tor.announce with
  | none =>
    have hg : Get v6 parseIP mime may net spare tor stats port peerId = ([], .panic) := by unfold Get; rw [hu]
    rw [hg] at hl
    cases hl
  | some u =>
    obtain ⟨R, hR, hg⟩ := get_some v6 parseIP mime may net spare hu stats port peerId
    rw [hg] at hl hn ⊢
    obtain ⟨l1, l2⟩ := run_last mime may net 10 0 ⟨{ u with rawQuery := query u tor stats port peerId }, forced tor.announce⟩
    rw [← hR] at l1 l2
    simp only [Nat.zero_add] at l2
    simp only [] at hl hn ⊢
    obtain ⟨-, -, k3, k4, k5⟩ := l2 hop hl
    have hw : R.2 = .waiting := by
      rcases hn with hn | ⟨info, h, loc, data, b, w, q, h1, h2, h3, h4, h5⟩ | ⟨info, h, loc, data, h1, h2, h3, h4⟩
      · exact k3 hn
      · exact k4 info h loc data .silent b w q h1 h2 rfl h3 h4 h5
      · exact k5 info h loc data h1 h2 h3 h4
    rw [hw]

/-- the same, without the last byte of the body of the redirection, which does not matter: if the connection is closed, there is a response; if not, the client waits for ever -/
example : (exampleGet 4 .eof).2 = .ok ⟨⟨9, 0, [], [], 1, 2⟩, []⟩ ∧ (exampleGet 4 .silent).2 = .timeout ∧ (exampleGet 4 .silent).1.length = 1 ∧
    Redirecting 302 ∧ Small ⟨302, false, some 5⟩ ((ascii "moved").take 4) ∧ IsURL exampleTor.announce :=
  ⟨by decide +kernel, by decide +kernel, by decide +kernel, .inr (.inl rfl), .inl ⟨5, rfl, by decide, by decide⟩,
    Classical.byContradiction fun h => absurd (announce_none.mpr h) (by decide +kernel)⟩

/-- **C129** and the rest of the model: if announcing comes to an end, requests and result are those of C124 and of `Tracker.Get`, for every network as C124 sees it. -/
theorem C129_same (v6 : IP → Bytes) (parseIP : Bytes → IP) (mime : Bytes → Bool) (may : Nat → Bool) (net : Nat → Hop → Reply) (spare : Bytes) (tor : Torrent) (stats : Stats)
    (port : UInt16) (peerId : Bytes) (net' : Nat → Hop → Option Answer) (hs : ∀ i hop, Seen mime (net i hop) (net' i hop))
    (h : (Get v6 parseIP mime may net spare tor stats port peerId).2 ≠ .timeout) :
    (Get v6 parseIP mime may net spare tor stats port peerId).2 = Tracker.Get v6 parseIP announce (Redirect.send net' tor.announce) spare tor stats port peerId ∧
    ∀ q, Tracker.newRequest announce tor stats port peerId = .ok q → (Get v6 parseIP mime may net spare tor stats port peerId).1 = (Redirect.requests net' tor.announce q).1 := by
  cases hu : NewRequest tor.announce with
  | none =>
    have hg : Get v6 parseIP mime may net spare tor stats port peerId = ([], .panic) := by unfold Get; rw [hu]
    have ha : announce tor.announce = none := by unfold announce; rw [hu]; rfl
    rw [hg]
    refine ⟨((C65_exact_partial _ _ _ _ _ _ _ _).mpr (announce_none.mp ha)).symm, fun q _ => ?_⟩
    unfold Redirect.requests
    rw [hu]
  | some u =>
    obtain ⟨R, hR, hg⟩ := get_some v6 parseIP mime may net spare hu stats port peerId
    rw [hg] at h ⊢
    have hreq : Redirect.requests net' tor.announce (query u tor stats port peerId) =
        Redirect.run net' 10 0 ⟨{ u with rawQuery := query u tor stats port peerId }, forced tor.announce⟩ := by
      unfold Redirect.requests
      rw [hu]
    obtain ⟨-, hw⟩ := run_seen mime may net net' hs 10 0 ⟨{ u with rawQuery := query u tor stats port peerId }, forced tor.announce⟩
    rw [← hR, ← hreq] at hw
    obtain ⟨h1, h2⟩ := hw (fun e => by rw [e] at h; exact h rfl)
    constructor
    · unfold Tracker.Get
      rw [query_eq hu, Res.ok_bind]
      unfold Redirect.send
      rw [h2]
      cases hr : R.2 with
      | waiting => rw [hr] at h; exact absurd rfl h
      | failed => rfl
      | body b => rfl
    · intro q hq
      rw [query_eq hu] at hq
      cases hq
      exact h1

/-- a network as C124 sees it: there always is one (`seen_exists`) -/
example : ∃ net' : Nat → Hop → Option Answer, (∀ i hop, Seen (fun _ => true) (exampleNet 4 .eof i hop) (net' i hop)) ∧ (exampleGet 4 .eof).2 ≠ .timeout :=
  ⟨fun i hop => Classical.choose (seen_exists (fun _ => true) (exampleNet 4 .eof i hop)), fun i hop => Classical.choose_spec (seen_exists (fun _ => true) (exampleNet 4 .eof i hop)),
    by decide +kernel⟩

end Verif.Announce
