import Verif.Lemmas.TrackText
/-
Property C106: what is said about an answer of the tracker that is refused (/repo/src/tracker/tracker.go:77-250, /repo/src/bencode/dict.go).
-/
set_option autoImplicit false

namespace Verif.TrackText
open Verif.Bencode Verif.Bencode.Spec Verif.Peer Verif.Tracker Verif.LoadText

/-- **C106**: the texts belong to the errors of `do`: it returns the same response, or returns an error and there is a text. -/
theorem C106_same (v6 : IP → Bytes) (parseIP : Bytes → IP) (reply : Reply) (sp : Bytes) :
    (∃ r, doRequest v6 parseIP reply.body sp = .ok r ∧ doT v6 parseIP reply sp = .ok r) ∨
    (∃ e w, doRequest v6 parseIP reply.body sp = .err e ∧ doT v6 parseIP reply sp = .err w) := by
  have h := agree_do v6 parseIP reply sp
  revert h
  generalize doRequest v6 parseIP reply.body sp = r
  generalize doT v6 parseIP reply sp = o
  intro h
  cases h with
  | ok a => exact .inl ⟨a, rfl, rfl⟩
  | err e w => exact .inr ⟨e, w, rfl, rfl⟩

/-- **C106**, exactly what is said about a dictionary, and when: the text is that of the first fault, and the answer is accepted if there is none. -/
theorem C106_exact (v6 : IP → Bytes) (parseIP : Bytes → IP) (status : Nat) (body sp addr : Bytes) (d : Dict) (hd : Decode body sp = .ok (.dict d)) :
    (∀ t, (∃ w, doT v6 parseIP (.answer status body) sp = .err w ∧ w.text v6 addr = t) ↔ Fault (ipString v6) parseIP addr d t) ∧
    ((∃ r, doT v6 parseIP (.answer status body) sp = .ok r) ↔ ∀ t, ¬ Fault (ipString v6) parseIP addr d t) := by
  obtain ⟨b, hp⟩ := decode_parses' hd
  have e : doT v6 parseIP (.answer status body) sp = newResponseT v6 parseIP d := by
    unfold doT
    simp only [decodeT_eq hd]
  rw [e]
  refine ⟨fun t => ⟨?_, fault_err v6 parseIP⟩, ?_, nofault_ok v6 parseIP hp⟩
  · rintro ⟨w, h1, h2⟩
    refine Classical.byContradiction fun hf => ?_
    by_cases h : ∃ t', Fault (ipString v6) parseIP addr d t'
    · obtain ⟨t', ht'⟩ := h
      obtain ⟨w', h3, h4⟩ := fault_err v6 parseIP ht'
      rw [h1] at h3
      cases h3
      rw [h2] at h4
      rw [h4] at hf
      exact hf ht'
    · obtain ⟨r, hr⟩ := nofault_ok v6 parseIP hp (fun t' ht' => h ⟨t', ht'⟩)
      rw [h1] at hr
      cases hr
  · rintro ⟨r, hr⟩ t ht
    obtain ⟨w, h1, -⟩ := fault_err v6 parseIP ht
    rw [hr] at h1
    cases h1

/-- **C106**: the reason that the tracker gives is passed on as it is, whatever else is in the answer, and whatever its status. -/
theorem C106_reason (v6 : IP → Bytes) (parseIP : Bytes → IP) (status : Nat) (body sp addr : Bytes) (d : Dict) (s : Bytes) (hd : Decode body sp = .ok (.dict d))
    (h : Has d (ascii "failure reason") (.str s)) :
    ∃ w, doT v6 parseIP (.answer status body) sp = .err w ∧ w.text v6 addr = ascii "tracker error: " ++ s :=
  ((C106_exact v6 parseIP status body sp addr d hd).1 _).mpr (.reason s h)

/-- **C106**: no answer, one that is not bencoded, and one that is not a dictionary.  The texts of the decoder are those of C104; the bytes of something
else are shown as numbers, and can be read from them. -/
theorem C106_unreadable (v6 : IP → Bytes) (parseIP : Bytes → IP) (sp addr : Bytes) :
    (∀ t, ∃ w, doT v6 parseIP (.failed t) sp = .err w ∧ w.text v6 addr = t) ∧
    (∀ status body e, Decode body sp = .err e → ∃ w, doT v6 parseIP (.answer status body) sp = .err w ∧ DecodeText.DecodeT body sp = .error (w.text v6 addr)) ∧
    (∀ status body v, Decode body sp = .ok v → ¬ Is .dict v → ∃ w, doT v6 parseIP (.answer status body) sp = .err w ∧
      w.text v6 addr = ascii "response not a bencoded dictionary\n" ++ shown body) ∧
    (∀ body body', shown body = shown body' → body = body') := by
  refine ⟨fun t => ⟨_, rfl, rfl⟩, ?_, ?_, ?_⟩
  · intro status body e h
    obtain ⟨t, ht⟩ := decodeT_err h
    refine ⟨.decode t, ?_, ht⟩
    simp only [doT, ht]
  · intro status body v h hv
    refine ⟨.notDict body, ?_, ?_⟩
    · simp only [doT, decodeT_eq h]
      cases v with
      | dict d => exact absurd (.dict d) hv
      | _ => rfl
    · rw [Why.text, MsgText.fmtBytes, MsgText.elems_eq]
      rfl
  · intro b b' h
    refine MsgText.elems_inj b b' ?_
    unfold shown at h
    rw [List.append_assoc, List.append_assoc] at h
    rw [MsgText.elems_eq, MsgText.elems_eq]
    exact List.append_cancel_left h

/-- **C106**: the texts about missing keys and types tell which key it is, whatever the addresses. -/
theorem C106_tells (addr addr' : Bytes) (d d' : Dict) (p p' : Bytes × Kind) (t : Bytes)
    (h : p ∈ numbers ++ entryKeys ++ [(ascii "peers", .list)]) (h' : p' ∈ numbers ++ entryKeys ++ [(ascii "peers", .list)])
    (u : Unfit addr d p t) (u' : Unfit addr' d' p' t) : p = p' ∧ ((Lacks d p.1 ↔ Lacks d' p'.1)) := by
  have plain : ∀ p ∈ numbers ++ entryKeys ++ [(ascii "peers", .list)], 93 ∉ p.1 := by decide
  have same : ∀ p ∈ numbers ++ entryKeys ++ [(ascii "peers", .list)], ∀ q ∈ numbers ++ entryKeys ++ [(ascii "peers", .list)], p.1 = q.1 → p = q := by decide
  have has : ∀ {d : Dict} {key : Bytes} {v : Value}, Has d key v → ¬ Lacks d key := fun h h' => h' _ h
  obtain ⟨key, kind⟩ := p
  obtain ⟨key', kind'⟩ := p'
  cases u with
  | missing hl =>
    generalize ht : missingText addr (key, kind).1 = t at u'
    cases u' with
    | missing hl' =>
      refine ⟨same _ h _ h' ?_, iff_of_true hl hl'⟩
      simp only [missingText, List.append_assoc] at ht
      exact until_bracket (plain _ h) (plain _ h') (List.append_cancel_left ht)
    | wrong v k hv hk hn => simp [missingText, typeText, ascii] at ht
  | wrong v k hv hk hn =>
    generalize ht : typeText addr (key, kind).1 (key, kind).2 k = t at u'
    cases u' with
    | missing hl' => simp [missingText, typeText, ascii] at ht
    | wrong v' k' hv' hk' hn' =>
      refine ⟨same _ h _ h' ?_, iff_of_false (has hv) (has hv')⟩
      simp only [typeText, List.append_assoc] at ht
      exact until_bracket (plain _ h) (plain _ h') (List.append_cancel_left ht)

/-! ### what they do not tell -/

/-- **C106** refuted: that the server did not find the page, or cannot be reached at the moment, is not said.  The text is about bencoding, and is the same
whatever the status. -/
theorem C106_refuted_status (v6 : IP → Bytes) (parseIP : Bytes → IP) (addr : Bytes) :
    ∃ w, (∀ status, doT v6 parseIP (.answer status (ascii "404 page not found\n")) [] = .err w) ∧ w.text v6 addr = ascii "decoder error: bad string at byte 3" := by
  have hd : DecodeText.DecodeT (ascii "404 page not found\n") [] = .error (ascii "decoder error: bad string at byte 3") := by
    rw [DecodeText.stops_text (e := .badString 3) (k := 3) (by decide +kernel)]
    rw [DecodeText.Why.text, show natDec 3 = ascii "3" by decide +kernel]
    rfl
  refine ⟨.decode (ascii "decoder error: bad string at byte 3"), fun status => ?_, rfl⟩
  simp only [doT, hd]

/-- **C106** refuted: an answer with the status of a failure is taken for a success, also if it comes with a reason that is not a text. -/
theorem C106_refuted_reason (v6 : IP → Bytes) (parseIP : Bytes → IP) (status : Nat) :
    ∃ body d r, Decode body [] = .ok (.dict d) ∧ Has d (ascii "failure reason") (.list [.str (ascii "gone")]) ∧
      doT v6 parseIP (.answer status body) [] = .ok r ∧ r.peers = [] := by
  have hd : Decode (ascii "d8:completei0e14:failure reasonl4:gonee10:incompletei0e8:intervali9e5:peerslee") [] = .ok (.dict
      [(ascii "complete", .int64 0), (ascii "failure reason", .list [.str (ascii "gone")]), (ascii "incomplete", .int64 0), (ascii "interval", .int64 9),
        (ascii "peers", .list [])]) := by decide +kernel
  refine ⟨_, _, ⟨⟨9, 0, [], [], 0, 0⟩, []⟩, hd, rfl, ?_, rfl⟩
  simp only [doT, decodeT_eq hd]
  rfl

theorem entry_text (v6 : IP → Bytes) (addr : Bytes) : (Why.entry []).text v6 addr = ascii "tracker error: invalid peer list\n[Peer List (0):]" := by
  have e : natDec ([] : List Info).length = ascii "0" := by decide +kernel
  rw [Why.text, Show.ListString, e]
  rfl

/-- **C106** refuted: the text about an element of the list of peers that is not a dictionary does not show this element, but the peers in front of it. -/
theorem C106_refuted_entry (v6 : IP → Bytes) (parseIP : Bytes → IP) (status : Nat) (addr : Bytes) :
    ∃ body body' d d' w, Decode body [] = .ok (.dict d) ∧ Decode body' [] = .ok (.dict d') ∧
      Has d (ascii "peers") (.list [.int64 1]) ∧ Has d' (ascii "peers") (.list [.str (ascii "10.0.0.7:80"), .list []]) ∧
      doT v6 parseIP (.answer status body) [] = .err w ∧ doT v6 parseIP (.answer status body') [] = .err w ∧
      w.text v6 addr = ascii "tracker error: invalid peer list\n[Peer List (0):]" := by
  have hd : Decode (ascii "d8:completei0e10:incompletei0e8:intervali9e5:peersli1eee") [] = .ok (.dict
      [(ascii "complete", .int64 0), (ascii "incomplete", .int64 0), (ascii "interval", .int64 9), (ascii "peers", .list [.int64 1])]) := by decide +kernel
  have hd' : Decode (ascii "d8:completei0e10:incompletei0e8:intervali9e5:peersl11:10.0.0.7:80leee") [] = .ok (.dict
      [(ascii "complete", .int64 0), (ascii "incomplete", .int64 0), (ascii "interval", .int64 9),
        (ascii "peers", .list [.str (ascii "10.0.0.7:80"), .list []])]) := by decide +kernel
  refine ⟨_, _, _, _, .entry [], hd, hd', rfl, rfl, ?_, ?_, ?_⟩
  · simp only [doT, decodeT_eq hd]
    rfl
  · simp only [doT, decodeT_eq hd']
    rfl
  · exact entry_text v6 addr

/-- **C106** refuted: a tracker can give as its reason what the client says about something else. -/
theorem C106_refuted_forged (v6 : IP → Bytes) (parseIP : Bytes → IP) (status : Nat) (addr : Bytes) :
    ∃ body body' d d' w w', Decode body [] = .ok (.dict d) ∧ Decode body' [] = .ok (.dict d') ∧ NoReason d ∧ ¬ NoReason d' ∧
      doT v6 parseIP (.answer status body) [] = .err w ∧ doT v6 parseIP (.answer status body') [] = .err w' ∧ w.text v6 addr = w'.text v6 addr := by
  have hd : Decode (ascii "d8:completei0e10:incompletei0e8:intervali9e5:peersli1eee") [] = .ok (.dict
      [(ascii "complete", .int64 0), (ascii "incomplete", .int64 0), (ascii "interval", .int64 9), (ascii "peers", .list [.int64 1])]) := by decide +kernel
  have hd' : Decode (ascii "d14:failure reason34:invalid peer list\n[Peer List (0):]e") [] = .ok (.dict
      [(ascii "failure reason", .str (ascii "invalid peer list\n[Peer List (0):]"))]) := by decide +kernel
  refine ⟨_, _, _, _, .entry [], .failure (ascii "invalid peer list\n[Peer List (0):]"), hd, hd', ?_, ?_, ?_, ?_, ?_⟩
  · intro s h; cases h
  · intro h; exact h _ rfl
  · simp only [doT, decodeT_eq hd]
    rfl
  · simp only [doT, decodeT_eq hd']
    rfl
  · rw [entry_text]
    rfl

/-! ### examples -/

/-- the second entry has no port; the hypotheses of `C106_exact` -/
example (v6 : IP → Bytes) (parseIP : Bytes → IP) (addr : Bytes) :
    ∃ w, doT v6 parseIP (.answer 200 (ascii "d8:completei1e10:incompletei2e8:intervali9e5:peersld2:ip1:a7:peer id1:x4:porti7eed2:ip1:beee")) [] = .err w ∧
      w.text v6 addr = ascii "missing key [port] in bencode dictionary [" ++ addr ++ ascii "]" := by
  have hd : Decode (ascii "d8:completei1e10:incompletei2e8:intervali9e5:peersld2:ip1:a7:peer id1:x4:porti7eed2:ip1:beee") [] = .ok (.dict
      [(ascii "complete", .int64 1), (ascii "incomplete", .int64 2), (ascii "interval", .int64 9),
        (ascii "peers", .list [.dict [(ascii "ip", .str (ascii "a")), (ascii "peer id", .str (ascii "x")), (ascii "port", .int64 7)],
          .dict [(ascii "ip", .str (ascii "b"))]])]) := by decide +kernel
  refine ⟨.missing (ascii "port"), ?_, rfl⟩
  simp only [doT, decodeT_eq hd]
  rfl

/-- the hypotheses of `C106_reason` -/
example : Decode (ascii "d14:failure reason4:nopee") [] = .ok (.dict [(ascii "failure reason", .str (ascii "nope"))]) := by decide +kernel

/-- what is not a dictionary -/
example (v6 : IP → Bytes) (parseIP : Bytes → IP) : doT v6 parseIP (.answer 200 (ascii "i1e")) [] = .err (.notDict (ascii "i1e")) := by
  have hd : Decode (ascii "i1e") [] = .ok (.int64 1) := by decide +kernel
  simp only [doT, decodeT_eq hd]

example : shown (ascii "i1e") = ascii "[105 49 101]" := by decide +kernel

end Verif.TrackText
