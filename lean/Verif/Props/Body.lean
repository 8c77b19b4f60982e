import Verif.Lemmas.Body
import Verif.Props.Bencode
import Verif.Props.Tracker
/-
C126: the answer of the tracker comes whole.
-/
set_option autoImplicit false

namespace Verif.Body
open Verif.BodySpec Verif.UrlParse Verif.Tracker Verif.Peer Verif.Bencode

/-- **C126**, exactly which bytes are taken for which body, if the end of the body does not depend on the end of the connection: those that begin with the body, sent as the head of the answer
says.  What comes behind does not matter, and neither does the end of the connection. -/
theorem C126_body_iff (mime : Bytes → Bool) (f : Framing) (hf : f ≠ .close) (data : Bytes) (e : End) (b : Bytes) :
    readBody mime f data e = .body b ↔ ∃ w more, data = w ++ more ∧ Sent mime f b w := by
  have hs : short e ≠ .body b := by cases e <;> (intro h; cases h)
  cases f with
  | close => exact absurd rfl hf
  | length n =>
    unfold readBody readLength Sent
    simp only []
    constructor
    · intro h
      split at h
      · next hn => cases h; exact ⟨data.take n, data.drop n, (List.take_append_drop n data).symm, by rw [List.length_take]; omega, rfl⟩
      · exact absurd h hs
    · rintro ⟨w, more, rfl, h1, rfl⟩
      rw [if_pos (by rw [List.length_append]; omega), ← h1, List.take_left]
  | chunked =>
    unfold readBody Sent
    simp only []
    constructor
    · intro h
      obtain ⟨b', w, more, h1, h2, h3⟩ := readChunks_sound mime e b _ _ _ h
      rw [List.nil_append] at h1
      subst h1
      exact ⟨w, more, h2, h3⟩
    · rintro ⟨w, more, rfl, h⟩
      have := readChunks_complete mime e h ((w ++ more).length + 1) more [] (by rw [List.length_append]; omega)
      rwa [List.nil_append] at this

/-- the body `d4:aaaai1ee`, in two chunks, and something behind it -/
example : readBody (fun _ => false) .chunked (ascii "4;x=y\r\nd4:a\r\n7 \r\naaai1ee\r\n0\r\n\r\nHTTP") .silent = .body (ascii "d4:aaaai1ee") := by decide +kernel

/-- an answer with a field behind the last chunk -/
example : readBody (fun t => t = ascii "A: b\r\n\r\n") .chunked (ascii "3\r\ni1e\r\n0\r\nA: b\r\n\r\n") .broken = .body (ascii "i1e") := by decide +kernel

/-- **C126**, if the end of the connection is the end of the body: what came before it, if it was an orderly end. -/
theorem C126_close_iff (mime : Bytes → Bool) (data : Bytes) (e : End) (b : Bytes) : readBody mime .close data e = .body b ↔ e = .eof ∧ data = b := by
  unfold readBody readClose
  cases e <;> simp [short]

example : readBody (fun _ => true) .close (ascii "de") .eof = .body (ascii "de") ∧ readBody (fun _ => true) .close (ascii "de") .broken = .failed := by decide +kernel

theorem trailer_short {mime : Bytes → Bool} {t r q : Bytes} (h : Trailer mime t) (ht : t = r ++ q) (hq : q ≠ []) (e : End) (b : Bytes) : readTrailer mime r e b = short e := by
  have hq' : 0 < q.length := List.length_pos_iff.mpr hq
  have hl : t.length = r.length + q.length := by rw [ht, List.length_append]
  unfold readTrailer
  by_cases h2 : r.length < 2
  · rw [if_pos h2]
  · rw [if_neg h2]
    rcases h with rfl | ⟨⟨u, hu⟩, h1, h3, h4, h5⟩
    · simp only [List.length_cons, List.length_nil] at hl; omega
    · have h6 : r.take 2 ≠ [13, 10] := by
        rw [ht, List.take_append_of_le_length (by omega)] at h3; exact h3
      rw [if_neg h6]
      cases hd : doubleCRLF 0 r with
      | none => simp only []; rw [if_neg (by omega)]
      | some k =>
        exfalso
        obtain ⟨u', v', e1, -, -⟩ := doubleCRLF_first r 0 k hd
        have := h1 u' (v' ++ q) (by rw [ht, e1]; simp)
        exact hq (List.append_eq_nil_iff.mp this).2

theorem append_cases {a b x y : Bytes} (h : a ++ b = x ++ y) : (∃ z, x = a ++ z ∧ b = z ++ y) ∨ ∃ z, z ≠ [] ∧ a = x ++ z ∧ y = z ++ b := by
  rcases List.append_eq_append_iff.mp h with ⟨z, h1, h2⟩ | ⟨z, h1, h2⟩
  · exact .inl ⟨z, h1, h2⟩
  · cases z with
    | nil => exact .inl ⟨[], by rw [h1]; simp, by rw [h2]; rfl⟩
    | cons c z => exact .inr ⟨c :: z, List.cons_ne_nil _ _, h1, h2⟩

theorem chunks_short {mime : Bytes → Bool} {b' w : Bytes} (h : Chunked mime b' w) (e : End) : ∀ f w' q b, w = w' ++ q → q ≠ [] → w'.length < f → readChunks mime f w' e b = short e := by
  have noLF : ∀ (x w' z : Bytes), (10 : UInt8) ∉ x → x.length + 1 < 4096 → x ++ [10] = w' ++ z → z ≠ [] → w'.idxOf? 10 = none ∧ ¬ 4096 ≤ w'.length := by
    intro x w' z hx hl he hz
    have hz' : 0 < z.length := List.length_pos_iff.mpr hz
    have hlen := congrArg List.length he
    rw [List.length_append, List.length_append, List.length_singleton] at hlen
    refine ⟨?_, by omega⟩
    rw [List.idxOf?_eq_none_iff]
    have : w' <+: x := by
      have h1 : w' = (x ++ [10]).take w'.length := by rw [he, List.take_left]
      rw [h1, List.take_append_of_le_length (by omega)]
      exact List.take_prefix _ _
    exact fun hm => hx (this.subset hm)
  induction h with
  | last l t hl ht =>
    intro f w' q b he hq hf
    cases f with
    | zero => omega
    | succ f =>
      obtain ⟨x, rfl, hx, hx4⟩ := sizeLine_split hl
      rw [readChunks]
      rcases append_cases he.symm with ⟨z, h1, h2⟩ | ⟨z, hz, h1, h2⟩
      · by_cases hz : z = []
        · subst hz
          rw [List.append_nil] at h1
          rw [← h1]
          have e2 : x ++ [10] = x ++ 10 :: [] := rfl
          rw [idxOf_line x [] hx]
          simp only []
          rw [if_neg (by omega), List.take_of_length_le (by simp), List.drop_of_length_le (by simp), (chunkSize_iff x 0 hx hx4).mpr hl]
          simp only []
          exact trailer_short ht (show t = [] ++ q from h2.symm) hq e b
        · obtain ⟨h3, h4⟩ := noLF x w' z hx hx4 h1 hz
          rw [h3]
          simp only []
          rw [if_neg h4]
      · subst h1
        have e1 : x ++ [10] ++ z = x ++ 10 :: z := by simp
        rw [e1, idxOf_line x _ hx]
        simp only []
        have ht' : (x ++ 10 :: z).take (x.length + 1) = x ++ [10] := by
          rw [List.take_append, List.take_of_length_le (by omega)]; simp
        have hd : (x ++ 10 :: z).drop (x.length + 1) = z := by
          rw [List.drop_append, List.drop_of_length_le (by omega)]; simp
        rw [if_neg (by omega), ht', hd, (chunkSize_iff x 0 hx hx4).mpr hl]
        simp only []
        exact trailer_short ht h2 hq e b
  | more c l b' w hc hl hw ih =>
    intro f w' q b he hq hf
    cases f with
    | zero => omega
    | succ f =>
      obtain ⟨x, rfl, hx, hx4⟩ := sizeLine_split hl
      obtain ⟨n, hn⟩ : ∃ n, c.length = n + 1 := by
        cases c with
        | nil => exact absurd rfl hc
        | cons y c => exact ⟨c.length, rfl⟩
      have he' : w' ++ q = (x ++ [10]) ++ (c ++ [13, 10] ++ w) := by rw [← he]; simp only [List.append_assoc]
      -- after the line with the size
      have key : ∀ z, w' = x ++ 10 :: z → c ++ [13, 10] ++ w = z ++ q → readChunks mime (f + 1) w' e b = short e := by
        intro z h1 h2
        subst h1
        rw [readChunks, idxOf_line x _ hx]
        simp only []
        have ht' : (x ++ 10 :: z).take (x.length + 1) = x ++ [10] := by
          rw [List.take_append, List.take_of_length_le (by omega)]; simp
        have hd : (x ++ 10 :: z).drop (x.length + 1) = z := by
          rw [List.drop_append, List.drop_of_length_le (by omega)]; simp
        rw [if_neg (by omega), ht', hd, (chunkSize_iff x c.length hx hx4).mpr hl, hn]
        simp only []
        rw [← hn]
        by_cases h3 : z.length < c.length + 2
        · rw [if_pos h3]
        · rw [if_neg h3]
          rcases append_cases h2.symm with ⟨y, h4, h5⟩ | ⟨y, hy, h4, h5⟩
          · have hl4 := congrArg List.length h4
            simp only [List.length_append, List.length_cons, List.length_nil] at hl4
            have hy : y = [] := List.length_eq_zero_iff.mp (by omega)
            subst hy
            rw [List.append_nil] at h4
            rw [← h4]
            rw [List.drop_left, if_pos (by rfl), List.drop_of_length_le (by simp)]
            exact ih f [] q _ (by rw [h5]; rfl) hq (by simp only [List.length_append, List.length_cons] at hf; simp; omega)
          · subst h4
            have h6 : (c ++ [13, 10] ++ y).drop c.length = [13, 10] ++ y := by rw [List.append_assoc, List.drop_left]
            rw [h6, if_pos (by rfl), List.drop_append, List.drop_of_length_le (by simp)]
            have : c.length + 2 - (c ++ [13, 10]).length = 0 := by simp
            rw [this, List.drop_zero, List.nil_append]
            refine ih f y q _ h5 hq ?_
            simp only [List.length_append, List.length_cons] at hf
            omega
      rcases append_cases he' with ⟨z, h1, h2⟩ | ⟨z, hz, h1, h2⟩
      · by_cases hz : z = []
        · subst hz
          rw [List.append_nil] at h1
          exact key [] (by rw [← h1]) (by rw [h2]; rfl)
        · obtain ⟨h3, h4⟩ := noLF x w' z hx hx4 h1 hz
          rw [readChunks, h3]
          simp only []
          rw [if_neg h4]
      · exact key z (by rw [h1]; simp) h2

/-- **C126**, a part of a body: an error, if the connection ends; otherwise waiting. -/
theorem C126_incomplete (v6 : IP → Bytes) (parseIP : Bytes → IP) (mime : Bytes → Bool) (h : Head) (hf : framing h ≠ .close) (b w w' q : Bytes) (hs : Sent mime (framing h) b w)
    (hw : w = w' ++ q) (hq : q ≠ []) (e : End) (spare : Bytes) : answer v6 parseIP mime h w' e spare = if e = .silent then .timeout else .err .os := by
  have hr : readBody mime (framing h) w' e = short e := by
    generalize framing h = f at hf hs
    cases f with
    | close => exact absurd rfl hf
    | length n =>
      obtain ⟨h1, h2⟩ := hs
      unfold readBody readLength
      simp only []
      rw [if_neg]
      have h3 := congrArg List.length hw
      have h4 := List.length_pos_iff.mpr hq
      rw [h2, List.length_append, h1] at h3
      omega
    | chunked => exact chunks_short hs e _ w' q [] hw hq (by omega)
  unfold answer
  rw [hr]
  cases e <;> rfl

/-- the last line is missing -/
example : Sent (fun _ => true) (framing ⟨200, true, none⟩) (ascii "i1e") (ascii "3\r\ni1e\r\n0\r\n\r\n") ∧ answer (fun _ => []) (fun _ => []) (fun _ => true) ⟨200, true, none⟩ (ascii "3\r\ni1e\r\n0\r\n") .eof [] = .err .os := by
  refine ⟨?_, by decide +kernel⟩
  have := (C126_body_iff (fun _ => true) .chunked (by decide) (ascii "3\r\ni1e\r\n0\r\n\r\n") .eof (ascii "i1e")).mp (by decide +kernel)
  obtain ⟨w, more, h1, h2⟩ := this
  cases more with
  | nil => rw [List.append_nil] at h1; rw [h1]; exact h2
  | cons c more =>
    exfalso
    -- no proper part of these bytes is accepted
    have h3 := (C126_body_iff (fun _ => true) .chunked (by decide) w .eof (ascii "i1e")).mpr ⟨w, [], by rw [List.append_nil], h2⟩
    have h4 : w = (ascii "3\r\ni1e\r\n0\r\n\r\n").take w.length := by rw [h1, List.take_left]
    have h5 : w.length < 13 := by
      have := congrArg List.length h1
      rw [List.length_append, List.length_cons, show (ascii "3\r\ni1e\r\n0\r\n\r\n").length = 13 by decide] at this
      omega
    have h6 : ∀ k, k < 13 → readBody (fun _ => true) .chunked ((ascii "3\r\ni1e\r\n0\r\n\r\n").take k) .eof ≠ .body (ascii "i1e") := by decide +kernel
    exact h6 w.length h5 (h4 ▸ h3)

/-- **C126**: an answer that arrives whole is taken as the body that was sent, whichever way it was sent; bytes behind it and the end of the connection make no difference, unless the end of the
connection is the end of the body. -/
theorem C126_arrives (v6 : IP → Bytes) (parseIP : Bytes → IP) (mime : Bytes → Bool) (h : Head) (b w more : Bytes) (hs : Sent mime (framing h) b w) (e : End)
    (hc : framing h = .close → e = .eof ∧ more = []) (spare : Bytes) : answer v6 parseIP mime h (w ++ more) e spare = doRequest v6 parseIP (some b) spare := by
  have hr : readBody mime (framing h) (w ++ more) e = .body b := by
    by_cases hf : framing h = .close
    · obtain ⟨rfl, rfl⟩ := hc hf
      rw [hf] at hs ⊢
      exact (C126_close_iff mime _ _ _).mpr ⟨rfl, by rw [List.append_nil]; exact hs⟩
    · exact (C126_body_iff mime _ hf _ _ _).mpr ⟨w, more, rfl, hs⟩
  unfold answer
  rw [hr]

/-- **C126**: how the body is sent is told by the head of the answer: if there are chunks, a length makes no difference; otherwise it is the length; and without both it is the end of the
connection.  What comes after the body makes no difference in the first two cases. -/
theorem C126_head (v6 : IP → Bytes) (parseIP : Bytes → IP) (mime : Bytes → Bool) (s : Nat) (hs : 200 ≤ s) (h204 : s ≠ 204) (h304 : s ≠ 304) (b w more : Bytes) (e : End) (spare : Bytes) :
    (∀ l, Chunked mime b w → answer v6 parseIP mime ⟨s, true, l⟩ (w ++ more) e spare = doRequest v6 parseIP (some b) spare) ∧
    answer v6 parseIP mime ⟨s, false, some b.length⟩ (b ++ more) e spare = doRequest v6 parseIP (some b) spare ∧
    answer v6 parseIP mime ⟨s, false, none⟩ b .eof spare = doRequest v6 parseIP (some b) spare := by
  have h1 : ¬ (100 ≤ s ∧ s ≤ 199 ∨ s = 204 ∨ s = 304) := by omega
  refine ⟨?_, ?_, ?_⟩
  · intro l hc
    have hf : framing ⟨s, true, l⟩ = .chunked := by unfold framing; rw [if_neg h1]; rfl
    exact C126_arrives v6 parseIP mime _ b w more (by rw [hf]; exact hc) e (by rw [hf]; intro h; cases h) spare
  · have hf : framing ⟨s, false, some b.length⟩ = .length b.length := by unfold framing; rw [if_neg h1]; rfl
    exact C126_arrives v6 parseIP mime _ b b more (by rw [hf]; exact ⟨rfl, rfl⟩) e (by rw [hf]; intro h; cases h) spare
  · have hf : framing ⟨s, false, none⟩ = .close := by unfold framing; rw [if_neg h1]; rfl
    have := C126_arrives v6 parseIP mime ⟨s, false, none⟩ b b [] (by rw [hf]; rfl) .eof (fun _ => ⟨rfl, rfl⟩) spare
    rwa [List.append_nil] at this

/-- chunks and a length that does not fit -/
example : answer (fun _ => []) (fun _ => []) (fun _ => true) ⟨200, true, some 7⟩ (ascii "35\r\nd8:completei1e10:incompletei2e8:intervali9e5:peers0:e\r\n0\r\n\r\n") .eof [] =
    .ok ⟨⟨9, 0, [], [], 1, 2⟩, []⟩ := by decide +kernel

/-- **C126**: an answer that is cut off is never taken for another one: whatever has arrived, and however the connection ends, if the client takes it for an answer then this is the answer that
was sent. -/
theorem C126_cut (v6 : IP → Bytes) (parseIP : Bytes → IP) (mime : Bytes → Bool) (h : Head) (b w w' q : Bytes) (hs : Sent mime (framing h) b w) (hw : w = w' ++ q) (e : End)
    (spare spare' : Bytes) (r : Response) (hr : answer v6 parseIP mime h w' e spare = .ok r) : doRequest v6 parseIP (some b) spare' = .ok r := by
  have dict : ∀ p ext, doRequest v6 parseIP (some p) spare = .ok r → doRequest v6 parseIP (some (p ++ ext)) spare' = .ok r := by
    intro p ext hp
    unfold doRequest at hp ⊢
    simp only [] at hp ⊢
    cases hd : Decode p spare with
    | err x => rw [hd] at hp; cases hp
    | panic => rw [hd] at hp; cases hp
    | timeout => rw [hd] at hp; cases hp
    | ok v =>
      rw [hd] at hp
      cases v with
      | dict d =>
        rw [C08_suffix_ignored_any_capacity p ext spare spare' (.dict d) (by intro s e; cases e) hd]
        exact hp
      | _ => cases hp
  by_cases hf : framing h = .close
  · unfold answer at hr
    rw [hf] at hr hs
    have hs' : w = b := hs
    subst hs'
    unfold readBody readClose at hr
    cases e with
    | eof => simp only [] at hr; rw [hw]; exact dict w' q hr
    | broken => cases hr
    | silent => cases hr
  · by_cases hq : q = []
    · subst hq
      rw [List.append_nil] at hw
      subst hw
      have := C126_arrives v6 parseIP mime h b w [] hs e (fun h' => absurd h' hf) spare
      rw [List.append_nil, hr] at this
      have h2 := dict b [] this.symm
      rwa [List.append_nil] at h2
    · rw [C126_incomplete v6 parseIP mime h hf b w w' q hs hw hq e spare] at hr
      split at hr <;> cases hr

/-- up to the end of the connection: without its last byte, the answer is refused; with further bytes, it is the same -/
example : let b := ascii "d8:completei1e10:incompletei2e8:intervali9e5:peers0:e"
    answer (fun _ => []) (fun _ => []) (fun _ => true) ⟨200, false, none⟩ b.dropLast .eof [] = .err .decoder ∧
    answer (fun _ => []) (fun _ => []) (fun _ => true) ⟨200, false, none⟩ (b ++ [1, 2]) .eof [] = .ok ⟨⟨9, 0, [], [], 1, 2⟩, []⟩ := by decide +kernel

/-- **C126** refuted, the status: the client never looks at it.  Every answer that may have a body is taken like one with status 200, also if the status says that there is no such page or that
the tracker has failed. -/
theorem C126_refuted_status (v6 : IP → Bytes) (parseIP : Bytes → IP) (mime : Bytes → Bool) (s : Nat) (hs : 200 ≤ s) (h204 : s ≠ 204) (h304 : s ≠ 304) (c : Bool) (l : Option Nat) (data : Bytes)
    (e : End) (spare : Bytes) : answer v6 parseIP mime ⟨s, c, l⟩ data e spare = answer v6 parseIP mime ⟨200, c, l⟩ data e spare := by
  have : framing ⟨s, c, l⟩ = framing ⟨200, c, l⟩ := by
    unfold framing
    simp only []
    have h1 : ¬ (100 ≤ s ∧ s ≤ 199 ∨ s = 204 ∨ s = 304) := by omega
    have h2 : ¬ (100 ≤ 200 ∧ 200 ≤ 199 ∨ 200 = 204 ∨ 200 = 304) := by omega
    rw [if_neg h1, if_neg h2]
  unfold answer
  rw [this]

/-- not found, and yet an answer -/
example : ∃ r, answer (fun _ => []) (fun _ => []) (fun _ => true) ⟨404, false, some 53⟩ (ascii "d8:completei1e10:incompletei2e8:intervali9e5:peers0:e") .eof [] = .ok r :=
  ⟨⟨⟨9, 0, [], [], 1, 2⟩, []⟩, by decide +kernel⟩

/-- **C126**: answers that may not have a body are refused, whatever follows them.  (101 is meant without the field `Upgrade`; other statuses below 200 are in front of an answer, see C129.) -/
theorem C126_no_body (v6 : IP → Bytes) (parseIP : Bytes → IP) (mime : Bytes → Bool) (h : Head) (hs : h.status = 101 ∨ h.status = 204 ∨ h.status = 304) (data : Bytes) (e : End) (spare : Bytes) :
    answer v6 parseIP mime h data e spare = .err .decoder := by
  unfold answer framing
  rw [if_pos (by omega)]
  rfl

example : answer (fun _ => []) (fun _ => []) (fun _ => true) ⟨204, true, none⟩ (ascii "2\r\nde\r\n0\r\n\r\n") .eof [] = .err .decoder := by decide +kernel

/-- **C126** refuted, the end: if the tracker falls silent in the middle of its answer, the client waits for ever, however the body is sent and however much of it is there. -/
theorem C126_refuted_silent (v6 : IP → Bytes) (parseIP : Bytes → IP) (mime : Bytes → Bool) (h : Head) (b w w' q : Bytes) (hs : Sent mime (framing h) b w) (hw : w = w' ++ q) (hq : q ≠ [])
    (spare : Bytes) : answer v6 parseIP mime h w' .silent spare = .timeout := by
  by_cases hf : framing h = .close
  · unfold answer; rw [hf]; rfl
  · rw [C126_incomplete v6 parseIP mime h hf b w w' q hs hw hq .silent spare, if_pos rfl]

example : Sent (fun _ => true) (framing ⟨200, false, some 2⟩) (ascii "de") (ascii "de") ∧ ascii "de" = ascii "d" ++ ascii "e" ∧ ascii "e" ≠ [] := ⟨⟨rfl, rfl⟩, by decide, by decide⟩

/-- **C126**: otherwise there is always an end: the client waits only if the connection neither ends nor brings what is missing. -/
theorem C126_waits (v6 : IP → Bytes) (parseIP : Bytes → IP) (mime : Bytes → Bool) (h : Head) (data : Bytes) (e : End) (he : e ≠ .silent) (spare : Bytes) :
    (∃ r, answer v6 parseIP mime h data e spare = .ok r) ∨ ∃ x, answer v6 parseIP mime h data e spare = .err x := by
  have hsh : short e = .failed := by cases e <;> first | rfl | exact absurd rfl he
  have trailer : ∀ d b, readTrailer mime d e b ≠ .waiting := by
    intro d b h
    unfold readTrailer at h
    rw [hsh] at h
    split at h
    · cases h
    · split at h
      · cases h
      · split at h
        · split at h
          · split at h <;> cases h
          · cases h
        · split at h <;> cases h
  have chunks : ∀ f d b, readChunks mime f d e b ≠ .waiting := by
    intro f
    induction f with
    | zero => intro d b h; cases h
    | succ f ih =>
      intro d b h
      rw [readChunks, hsh] at h
      cases hp : d.idxOf? 10 with
      | none => rw [hp] at h; simp only [] at h; split at h <;> cases h
      | some p =>
        rw [hp] at h
        simp only [] at h
        split at h
        · cases h
        · cases hc : chunkSize (d.take (p + 1)) with
          | none => rw [hc] at h; cases h
          | some n =>
            rw [hc] at h
            cases n with
            | zero => exact trailer _ _ h
            | succ n =>
              simp only [] at h
              split at h
              · cases h
              · split at h
                · exact ih _ _ h
                · cases h
  have hw : readBody mime (framing h) data e ≠ .waiting := by
    generalize framing h = f
    unfold readBody
    cases f with
    | length n => simp only [readLength, hsh]; split <;> (intro h; cases h)
    | chunked => exact chunks _ _ _
    | close => cases e with
      | eof => intro h; cases h
      | broken => intro h; cases h
      | silent => exact absurd rfl he
  unfold answer
  cases hb : readBody mime (framing h) data e with
  | body b => exact C37_no_panic v6 parseIP (some b) spare
  | failed => exact .inr ⟨.os, rfl⟩
  | waiting => exact absurd hb hw

example : answer (fun _ => []) (fun _ => []) (fun _ => true) ⟨200, true, none⟩ (ascii "x\r\n") .broken [] = .err .os := by decide +kernel

end Verif.Body
