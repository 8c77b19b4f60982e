import Verif.Lemmas.PieceTracker
import Verif.Spec.Seq
/-
Properties C46-C49: availability tracking (/repo/src/swarm/piecetracker.go).
-/
set_option autoImplicit false

namespace Verif.PieceTracker
open Verif.DS Verif.Bf Verif.Avail Verif.Bits Verif.SeqSpec

/-- a call; `NextPiece` comes with the contents of our bitfield at that time -/
inductive Call where
  | register (w : PH) (is : List Nat)
  | registerBF (w : PH) (b : Bitfield)
  | unregister (w : PH)
  | next (w : PH) (own : Bitfield)

/-- a call of the model -/
def perform (t : Tracker) : Call → Res Tracker
  | .register w is => Register t w is
  | .registerBF w b => RegisterBF t w b
  | .unregister w => Unregister t w
  | .next w own => do
    let (t', _, _) ← NextPiece t own w
    .ok t'

/-- a history of calls, oldest first -/
def performAll : Tracker → List Call → Res Tracker
  | t, [] => .ok t
  | t, c :: cs => do
    let t' ← perform t c
    performAll t' cs

/-- calls about a torrent with `size` pieces: indices exist, announced bits belong to pieces, our bitfield has a bit for each piece -/
def Call.Valid (size : Nat) : Call → Prop
  | .register _ is => ∀ i ∈ is, i < size
  | .registerBF _ b => Wf b ∧ ∀ i : Nat, (i : Int) < b.nbits → bit b.data i = true → i < size
  | .unregister _ => True
  | .next _ own => size ≤ 8 * own.data.length

/-- what a call means: which peer is registered for which pieces -/
def Call.steps : Call → List Step
  | .register w is => is.map (Step.reg w.key)
  | .registerBF w b => ((List.range b.nbits.toNat).filter (bit b.data)).map (Step.reg w.key)
  | .unregister w => [.unreg w.key]
  | .next _ _ => []

/-- who is registered for what after a history -/
def after (cs : List Call) : State := (cs.flatMap Call.steps).foldl Step.effect empty

/-- node `i` holds piece `i` with the peers `a i`, and bucket `c` contains exactly the pieces with `c` peers -/
structure Filed (t : Tracker) (size : Nat) (a : State) : Prop where
  pieces : ∀ i, i < size → ∃ n nd, t.nodes[i]? = some n ∧ t.heap[n]? = some nd ∧ nd.data.index = i ∧ nd.data.peerSet.map Prod.fst = a i
  buckets : ∀ c, c < 64 → ∃ (ll : LinkedList) (xs : List Nat), t.buckets[c]? = some ll ∧ Forward t.heap ll.head xs ∧ xs.Nodup ∧ ll.size = xs.length ∧
    ∀ n, (n ∈ xs ↔ ∃ i, i < size ∧ t.nodes[i]? = some n ∧ (a i).length = c)

theorem Inv.filed {t : Tracker} {size : Nat} {a : State} (h : Inv t size a) : Filed t size a := by
  refine ⟨?_, ?_⟩
  · intro i hi
    obtain ⟨nd, s, -, hg, hd, hk, -, -⟩ := h.deref i hi
    exact ⟨i, nd, h.node i hi, hg, by rw [hd], by rw [hd]; exact hk⟩
  · intro c hc
    obtain ⟨X, hX, hm⟩ := h.ex
    obtain ⟨ll, hb, il⟩ := hX.lists c hc
    refine ⟨ll, X c, hb, il.head ▸ seg_forward il.seg, il.nodup, il.size, ?_⟩
    intro n
    constructor
    · intro hn
      have hlt := hX.mem_lt hc hn
      exact ⟨n, hlt, h.node n hlt, ((hm n c hlt).mp hn).symm⟩
    · rintro ⟨i, hi, hni, hl⟩
      rw [h.node i hi] at hni
      cases hni
      exact (hm _ c hi).mpr hl.symm

theorem perform_spec {t : Tracker} {size : Nat} {a : State} (h : Inv t size a) (hs : size ≤ 2 ^ 32) (c : Call) (hv : c.Valid size) :
    (AtMost 63 a c.steps → ∃ t', perform t c = .ok t' ∧ Inv t' size (c.steps.foldl Step.effect a)) ∧
    (¬ AtMost 63 a c.steps → perform t c = .panic) := by
  cases c with
  | register w is =>
    obtain ⟨h1, h2⟩ := Register_does w is h hv
    exact ⟨fun hh => let ⟨t', e, iv, _⟩ := h1 hh; ⟨t', e, iv⟩, h2⟩
  | registerBF w b =>
    obtain ⟨h1, h2⟩ := RegisterBF_does b w h hv.1 hs hv.2
    exact ⟨fun hh => let ⟨t', e, iv, _⟩ := h1 hh; ⟨t', e, iv⟩, h2⟩
  | unregister w =>
    obtain ⟨t', e, iv, -⟩ := unregister_spec h w
    refine ⟨fun _ => ⟨t', e, iv⟩, fun hh => absurd ⟨fun j => iv.le j, trivial⟩ hh⟩
  | next w own =>
    refine ⟨fun _ => ?_, fun hh => absurd trivial hh⟩
    rcases nextPiece_spec h own hv w with ⟨i, e, -⟩ | ⟨e, -⟩
    · exact ⟨_, by rw [perform, e, Res.ok_bind], h.requests _⟩
    · exact ⟨_, by rw [perform, e, Res.ok_bind], h⟩

theorem performAll_spec (cs : List Call) {t : Tracker} {size : Nat} {a : State} (h : Inv t size a) (hs : size ≤ 2 ^ 32) (hv : ∀ c ∈ cs, c.Valid size) :
    (AtMost 63 a (cs.flatMap Call.steps) → ∃ t', performAll t cs = .ok t' ∧ Inv t' size ((cs.flatMap Call.steps).foldl Step.effect a)) ∧
    (¬ AtMost 63 a (cs.flatMap Call.steps) → performAll t cs = .panic) := by
  induction cs generalizing t a with
  | nil => exact ⟨fun _ => ⟨t, rfl, h⟩, fun hh => absurd trivial hh⟩
  | cons c cs ih =>
    rw [List.flatMap_cons, atMost_append, List.foldl_append, performAll]
    obtain ⟨h1, h2⟩ := perform_spec h hs c (hv c (by simp))
    constructor
    · rintro ⟨ha, hb⟩
      obtain ⟨t1, e1, i1⟩ := h1 ha
      obtain ⟨t2, e2, i2⟩ := (ih i1 (fun c' hc => hv c' (by simp [hc]))).1 hb
      exact ⟨t2, by rw [e1, Res.ok_bind, e2], i2⟩
    · intro hn
      by_cases ha : AtMost 63 a c.steps
      · obtain ⟨t1, e1, i1⟩ := h1 ha
        rw [e1, Res.ok_bind]
        exact (ih i1 (fun c' hc => hv c' (by simp [hc]))).2 (fun hb => hn ⟨ha, hb⟩)
      · rw [h2 ha]; rfl

/-- the tracker of a torrent with `size` pieces after a history -/
def Reached (size : Nat) (cs : List Call) (t : Tracker) : Prop :=
  size ≤ 2 ^ 32 ∧ (∀ c ∈ cs, c.Valid size) ∧ ∃ t0, NewPeerPieceTracker size = .ok t0 ∧ performAll t0 cs = .ok t

theorem Reached.inv {size : Nat} {cs : List Call} {t : Tracker} (h : Reached size cs t) : Inv t size (after cs) := by
  obtain ⟨hs, hv, t0, h0, hp⟩ := h
  obtain ⟨t0', e0, i0, -⟩ := new_spec size
  rw [h0] at e0
  cases e0
  obtain ⟨h1, h2⟩ := performAll_spec cs i0 hs hv
  by_cases ha : AtMost 63 empty (cs.flatMap Call.steps)
  · obtain ⟨t', e, iv⟩ := h1 ha
    rw [hp] at e
    cases e
    exact iv
  · rw [h2 ha] at hp; cases hp

/-! ### C46 -/

/-- **C46**, exact: a history ends without panic precisely if no piece ever gets a 64th distinct peer; otherwise it panics. -/
theorem C46_panic_iff_partial (size : Nat) (hs : size ≤ 2 ^ 32) (cs : List Call) (hv : ∀ c ∈ cs, c.Valid size) :
    ∃ t0, NewPeerPieceTracker size = .ok t0 ∧
      ((∃ t, performAll t0 cs = .ok t) ↔ AtMost 63 empty (cs.flatMap Call.steps)) ∧
      (performAll t0 cs = .panic ↔ ¬ AtMost 63 empty (cs.flatMap Call.steps)) := by
  obtain ⟨t0, e0, i0, -⟩ := new_spec size
  obtain ⟨h1, h2⟩ := performAll_spec cs i0 hs hv
  refine ⟨t0, e0, ⟨?_, fun ha => let ⟨t', e, _⟩ := h1 ha; ⟨t', e⟩⟩, ⟨?_, h2⟩⟩
  · rintro ⟨t, e⟩
    apply Classical.byContradiction
    intro hn
    rw [h2 hn] at e; cases e
  · intro e hn
    obtain ⟨t', e', -⟩ := h1 hn
    rw [e] at e'; cases e'

/-- **C46**, the filing: as long as nothing panicked, each piece is in the bucket numbered with its distinct peers. -/
theorem C46_filed (size : Nat) (cs : List Call) (t : Tracker) (h : Reached size cs t) : Filed t size (after cs) := h.inv.filed

theorem effect_sub (keys : List Bytes) (a : State) (s : Step) (ha : ∀ j, (a j).Nodup ∧ ∀ k ∈ a j, k ∈ keys)
    (hs : ∀ k i, s = .reg k i → k ∈ keys) : ∀ j, (s.effect a j).Nodup ∧ ∀ k ∈ s.effect a j, k ∈ keys := by
  intro j
  cases s with
  | reg k i =>
    simp only [Step.effect]
    by_cases hji : j = i ∧ k ∉ a i
    · rw [if_pos hji]
      refine ⟨?_, ?_⟩
      · rw [List.nodup_append]
        exact ⟨(ha i).1, by simp, fun x hx y hy => by simp only [List.mem_singleton] at hy; rintro rfl; exact hji.2 (hy ▸ hx)⟩
      · intro x hx
        rcases List.mem_append.mp hx with hx | hx
        · exact (ha i).2 x hx
        · rw [List.mem_singleton.mp hx]; exact hs k i rfl
    · rw [if_neg hji]; exact ha j
  | unreg k => exact ⟨(ha j).1.filter _, fun x hx => (ha j).2 x ((List.mem_filter.mp hx).1)⟩

theorem nodup_le (keys l : List Bytes) (hn : l.Nodup) (hl : ∀ k ∈ l, k ∈ keys) : l.length ≤ keys.length := by
  induction l generalizing keys with
  | nil => simp
  | cons x l ih =>
    obtain ⟨h1, h2⟩ := List.nodup_cons.mp hn
    have hx := hl x (by simp)
    have := ih (keys.erase x) h2 (fun k hk => by
      have hne : k ≠ x := fun e => h1 (e ▸ hk)
      exact (List.mem_erase_of_ne hne).mpr (hl k (by simp [hk])))
    rw [List.length_erase_of_mem hx] at this
    have := List.length_pos_of_mem hx
    simp only [List.length_cons]; omega

theorem atMost_of_keys (keys : List Bytes) (hk : keys.length ≤ 63) (ss : List Step) (a : State) (ha : ∀ j, (a j).Nodup ∧ ∀ k ∈ a j, k ∈ keys)
    (hs : ∀ k i, Step.reg k i ∈ ss → k ∈ keys) : AtMost 63 a ss := by
  induction ss generalizing a with
  | nil => trivial
  | cons s ss ih =>
    have h1 := effect_sub keys a s ha (fun k i e => hs k i (by simp [e]))
    refine ⟨fun j => Nat.le_trans (nodup_le keys _ (h1 j).1 (h1 j).2) hk, ih _ h1 (fun k i hm => hs k i (by simp [hm]))⟩

/-- the peer of a call -/
def Call.who : Call → PH
  | .register w _ => w
  | .registerBF w _ => w
  | .unregister w => w
  | .next w _ => w

theorem steps_who (c : Call) (k : Bytes) (i : Nat) (h : Step.reg k i ∈ c.steps) : k = c.who.key := by
  cases c with
  | register w is =>
    simp only [Call.steps, List.mem_map] at h
    obtain ⟨j, -, e⟩ := h
    cases e; rfl
  | registerBF w b =>
    simp only [Call.steps, List.mem_map] at h
    obtain ⟨j, -, e⟩ := h
    cases e; rfl
  | unregister w => simp [Call.steps] at h
  | next w own => simp [Call.steps] at h

/-- **C46** (partial: at most 63 peers).  With at most 63 distinct peers in the whole history nothing panics. -/
theorem C46_few_peers_partial (size : Nat) (hs : size ≤ 2 ^ 32) (cs : List Call) (hv : ∀ c ∈ cs, c.Valid size)
    (keys : List Bytes) (hk : keys.length ≤ 63) (hc : ∀ c ∈ cs, c.who.key ∈ keys) : ∃ t, Reached size cs t := by
  obtain ⟨t0, e0, h1, -⟩ := C46_panic_iff_partial size hs cs hv
  obtain ⟨t, e⟩ := h1.mpr (atMost_of_keys keys hk _ empty (fun j => ⟨List.nodup_nil, fun k hk => by cases hk⟩) (by
    intro k i hm
    obtain ⟨c, hcm, hcs⟩ := List.mem_flatMap.mp hm
    rw [steps_who c k i hcs]; exact hc c hcm))
  exact ⟨t, hs, hv, t0, e0, e⟩

theorem reg_all (ws : List PH) (i : Nat) (a : State) (hn : (ws.map PH.key).Nodup) (hd : ∀ w ∈ ws, w.key ∉ a i)
    (h : AtMost 63 a ((ws.map fun w => Call.register w [i]).flatMap Call.steps)) : ws = [] ∨ (a i).length + ws.length ≤ 63 := by
  induction ws generalizing a with
  | nil => exact .inl rfl
  | cons w ws ih =>
    refine .inr ?_
    simp only [List.map_cons, List.flatMap_cons, Call.steps, List.map_nil, List.cons_append, List.nil_append, AtMost] at h
    obtain ⟨h1, h2⟩ := h
    simp only [List.map_cons, List.nodup_cons] at hn
    have hw := hd w (by simp)
    have he : (Step.reg w.key i).effect a i = a i ++ [w.key] := by simp [Step.effect, hw]
    have hl := h1 i
    rw [he, List.length_append, List.length_singleton] at hl
    rcases ih ((Step.reg w.key i).effect a) hn.2 (by
      intro v hv
      rw [he, List.mem_append, not_or]
      refine ⟨hd v (by simp [hv]), ?_⟩
      simp only [List.mem_singleton]
      intro e
      exact hn.1 (e ▸ List.mem_map_of_mem hv)) h2 with rfl | h3
    · simpa using hl
    · rw [he, List.length_append, List.length_singleton] at h3
      simp only [List.length_cons]; omega

/-- C46 refuted: for every torrent and any 64 distinct peers that have the same piece, the last registration panics. -/
theorem C46_refuted_64_peers (size : Nat) (hs : size ≤ 2 ^ 32) (i : Nat) (hi : i < size) (ws : List PH) (hl : ws.length = 64) (hn : (ws.map PH.key).Nodup) :
    ∃ t0, NewPeerPieceTracker size = .ok t0 ∧ performAll t0 (ws.map fun w => Call.register w [i]) = .panic := by
  obtain ⟨t0, e0, -, h2⟩ := C46_panic_iff_partial size hs (ws.map fun w => Call.register w [i]) (by
    intro c hc
    obtain ⟨w, -, rfl⟩ := List.mem_map.mp hc
    intro j hj
    rw [List.mem_singleton.mp hj]; exact hi)
  refine ⟨t0, e0, h2.mpr ?_⟩
  intro h
  rcases reg_all ws i empty hn (fun w _ => by simp [empty]) h with rfl | h'
  · cases hl
  · simp only [empty, List.length_nil] at h'; omega

/-- 64 peers as in the theorem -/
example : ((List.range 64).map fun n => (⟨n, [UInt8.ofNat n]⟩ : PH)).length = 64 ∧
    (((List.range 64).map fun n => (⟨n, [UInt8.ofNat n]⟩ : PH)).map PH.key).Nodup := by decide +kernel

/-- a history with three peers, a bitfield and a removal -/
example : ∀ c ∈ [Call.register ⟨1, [1]⟩ [0, 2], .registerBF ⟨2, [2]⟩ ⟨[0, 0, 0, 2, 5, 160], 1, 3, 2⟩, .next ⟨1, [1]⟩ ⟨[0, 0, 0, 2, 5, 0], 1, 3, 0⟩,
    .unregister ⟨1, [1]⟩], c.Valid 3 := by
  intro c hc
  simp only [List.mem_cons, List.not_mem_nil, or_false] at hc
  rcases hc with rfl | rfl | rfl | rfl
  · simp [Call.Valid]
  · refine ⟨⟨by simp, by simp, by simp, by simp⟩, ?_⟩
    intro i hi _
    simp only at hi; omega
  · simp [Call.Valid, Bitfield.data]
  · trivial

/-! ### C47 -/

/-- **C47**.  After any history: `NextPiece` returns a piece that we do not have and the peer has, with the fewest registered
peers among these, and reports none exactly if there is none. -/
theorem C47_rarest (size : Nat) (cs : List Call) (t : Tracker) (h : Reached size cs t) (own : Bitfield) (hown : size ≤ 8 * own.data.length) (w : PH) :
    ∃ t' i found, NextPiece t own w = .ok (t', i, found) ∧
      (found = true → i < size ∧ own.Get i = .ok false ∧ w.key ∈ after cs i ∧
        ∀ j : Nat, j < size → own.Get j = .ok false → w.key ∈ after cs j → (after cs i).length ≤ (after cs j).length) ∧
      (found = false → i = 0) ∧
      (found = false ↔ ¬ ∃ j : Nat, j < size ∧ own.Get j = .ok false ∧ w.key ∈ after cs j) := by
  have hget : ∀ j : Nat, j < size → own.Get j = .ok (bit own.data j) := fun j hj => by rw [get_nat, if_pos (by omega)]
  rcases nextPiece_spec h.inv own hown w with ⟨i, e, hi, hb, hk, hmin⟩ | ⟨e, hno⟩
  · refine ⟨_, i, true, e, fun _ => ⟨hi, by rw [hget i hi, hb], hk, ?_⟩, nofun, nofun, ?_⟩
    · intro j hj hgj hkj
      rw [hget j hj] at hgj
      exact hmin j hj (Res.ok.inj hgj) hkj
    · intro hno
      exact absurd ⟨i, hi, by rw [hget i hi, hb], hk⟩ hno
  · refine ⟨_, 0, false, e, nofun, fun _ => rfl, ?_⟩
    simp only [true_iff]
    rintro ⟨j, hj, hgj, hkj⟩
    rw [hget j hj] at hgj
    exact hno ⟨j, hj, Res.ok.inj hgj, hkj⟩

/-- piece 2 has one peer, piece 0 two: the peer with both gets piece 2 -/
example : ∃ t0 t, NewPeerPieceTracker 3 = .ok t0 ∧ performAll t0 [.register ⟨1, [1]⟩ [0, 2], .register ⟨2, [2]⟩ [0]] = .ok t ∧
    ∃ t', NextPiece t ⟨[0, 0, 0, 2, 5, 0], 1, 3, 0⟩ ⟨1, [1]⟩ = .ok (t', 2, true) :=
  ⟨_, _, rfl, rfl, _, rfl⟩

/-! ### C48 -/

/-- C48 refuted: after any history, a piece handed out is handed out again to the same peer at once, and to any other peer for
which it would have been chosen before. -/
theorem C48_refuted_again (size : Nat) (cs : List Call) (t : Tracker) (_h : Reached size cs t) (own : Bitfield) (w : PH) (t' : Tracker) (i : Nat)
    (hn : NextPiece t own w = .ok (t', i, true)) :
    (∃ t'', NextPiece t' own w = .ok (t'', i, true)) ∧
    ∀ v t1 j, NextPiece t own v = .ok (t1, j, true) → ∃ t'', NextPiece t' own v = .ok (t'', j, true) := by
  have hth : t'.heap = t.heap ∧ t'.buckets = t.buckets := by
    unfold NextPiece at hn
    cases hr : scanBuckets t.heap own w (t.buckets.drop 1) with
    | ok r =>
      rw [hr, Res.ok_bind] at hn
      cases r with
      | none => cases hn
      | some k => cases hn; exact ⟨rfl, rfl⟩
    | err e => rw [hr] at hn; cases hn
    | panic => rw [hr] at hn; cases hn
    | timeout => rw [hr] at hn; cases hn
  have hgen : ∀ v t1 j, NextPiece t own v = .ok (t1, j, true) → ∃ t'', NextPiece t' own v = .ok (t'', j, true) := by
    intro v t1 j hv
    unfold NextPiece at hv ⊢
    rw [hth.1, hth.2]
    cases hr : scanBuckets t.heap own v (t.buckets.drop 1) with
    | ok r =>
      rw [hr, Res.ok_bind] at hv
      cases r with
      | none => cases hv
      | some k => cases hv; exact ⟨_, rfl⟩
    | err e => rw [hr] at hv; cases hv
    | panic => rw [hr] at hv; cases hv
    | timeout => rw [hr] at hv; cases hv
  exact ⟨hgen w t' i hn, hgen⟩

/-- C48 refuted, concretely: two peers that have the only piece both get it. -/
theorem C48_refuted_two_peers : ∃ t0 t t1 t2, NewPeerPieceTracker 1 = .ok t0 ∧
    performAll t0 [.register ⟨1, [1]⟩ [0], .register ⟨2, [2]⟩ [0]] = .ok t ∧
    NextPiece t ⟨[0, 0, 0, 2, 5, 0], 1, 1, 0⟩ ⟨1, [1]⟩ = .ok (t1, 0, true) ∧
    NextPiece t1 ⟨[0, 0, 0, 2, 5, 0], 1, 1, 0⟩ ⟨2, [2]⟩ = .ok (t2, 0, true) :=
  ⟨_, _, _, _, rfl, rfl, rfl, rfl⟩

/-- what the tracker has noted for a peer: the copies of pieces under its handler, with their flag -/
def noted (t : Tracker) (p : Nat) : List (Nat × Bool) := (t.requests.lookup p).getD []

/-- what a call does to the ledgers -/
def Call.events (t : Tracker) : Call → List Event
  | .next w own => match NextPiece t own w with
    | .ok (_, i, true) => [.handed w.ptr i]
    | _ => []
  | .unregister w => [.gone w.ptr]
  | _ => []

/-- the same for a history -/
def eventsAll : Tracker → List Call → List Event
  | _, [] => []
  | t, c :: cs => c.events t ++ match perform t c with
    | .ok t' => eventsAll t' cs
    | _ => []

theorem ledger_handed (p q i : Nat) (es : List Event) :
    ledger p (es ++ [.handed q i]) = if q = p then ledger p es ++ [(i, true)] else ledger p es := by
  induction es with
  | nil => simp [ledger]
  | cons e es ih =>
    cases e with
    | handed q' j =>
      simp only [List.cons_append, ledger, ih]
      by_cases h1 : q' = p <;> by_cases h2 : q = p <;> simp [h1, h2]
    | gone q' => simp only [List.cons_append, ledger, ih]

theorem ledger_gone (p q : Nat) (es : List Event) :
    ledger p (es ++ [.gone q]) = if q = p then (ledger p es).map (fun x => (x.1, false)) else ledger p es := by
  induction es with
  | nil => simp [ledger]
  | cons e es ih =>
    cases e with
    | handed q' j =>
      simp only [List.cons_append, ledger, ih]
      by_cases h1 : q' = p <;> by_cases h2 : q = p <;> simp [h1, h2]
      exact fun _ h => absurd h.symm h2
    | gone q' => simp only [List.cons_append, ledger, ih]

theorem noted_add (rs : List (Nat × List (Nat × Bool))) (p q i : Nat) :
    ((addRequest rs q i).lookup p).getD [] = if q = p then (rs.lookup p).getD [] ++ [(i, true)] else (rs.lookup p).getD [] := by
  unfold addRequest
  split
  · rename_i hs
    have hm : ∀ l : List (Nat × List (Nat × Bool)),
        (l.map fun r => if r.1 = q then (r.1, r.2 ++ [(i, true)]) else r).lookup p =
          if q = p then (l.lookup p).map (· ++ [(i, true)]) else l.lookup p := by
      intro l
      induction l with
      | nil => simp
      | cons r l ih =>
        obtain ⟨a, b⟩ := r
        simp only [List.map_cons]
        by_cases h1 : a = q
        · subst h1
          simp only [if_true, List.lookup_cons]
          by_cases h2 : a = p
          · subst h2; simp
          · have : (p == a) = false := by simpa using fun h => h2 h.symm
            simp only [this, ih, if_neg h2]
        · simp only [if_neg h1, List.lookup_cons]
          by_cases h2 : a = p
          · subst h2
            simp [Ne.symm h1]
          · have : (p == a) = false := by simpa using fun h => h2 h.symm
            simp only [this, ih]
    rw [hm]
    by_cases h2 : q = p
    · subst h2
      obtain ⟨x, hx⟩ := Option.isSome_iff_exists.mp hs
      simp [hx]
    · simp [h2]
  · rename_i hs
    have hl : ∀ l : List (Nat × List (Nat × Bool)), (l ++ [(q, [(i, true)])]).lookup p =
        match l.lookup p with | some x => some x | none => if q = p then some [(i, true)] else none := by
      intro l
      induction l with
      | nil =>
        by_cases h2 : q = p
        · subst h2; simp
        · have : (p == q) = false := by simpa using fun h => h2 h.symm
          simp [List.lookup_cons, this, h2]
      | cons r l ih =>
        obtain ⟨a, b⟩ := r
        simp only [List.cons_append, List.lookup_cons]
        cases p == a with
        | true => rfl
        | false => exact ih
    rw [hl]
    by_cases h2 : q = p
    · subst h2
      have : rs.lookup q = none := by
        cases hq : rs.lookup q with
        | none => rfl
        | some x => rw [hq] at hs; exact absurd rfl hs
      simp [this]
    · cases rs.lookup p <;> simp [h2]

theorem noted_gone (rs : List (Nat × List (Nat × Bool))) (p q : Nat) :
    ((rs.map fun r => if r.1 = q then (r.1, r.2.map fun x => (x.1, false)) else r).lookup p).getD [] =
      if q = p then ((rs.lookup p).getD []).map (fun x => (x.1, false)) else (rs.lookup p).getD [] := by
  induction rs with
  | nil => simp
  | cons r l ih =>
    obtain ⟨a, b⟩ := r
    simp only [List.map_cons]
    by_cases h1 : a = q
    · subst h1
      simp only [if_true, List.lookup_cons]
      by_cases h2 : a = p
      · subst h2; simp
      · have : (p == a) = false := by simpa using fun h => h2 h.symm
        simp only [this, ih]
    · simp only [if_neg h1, List.lookup_cons]
      by_cases h2 : a = p
      · subst h2
        simp [Ne.symm h1]
      · have : (p == a) = false := by simpa using fun h => h2 h.symm
        simp only [this, ih]

/-- one call keeps the notes equal to the ledgers -/
theorem noted_step {t t' : Tracker} {size : Nat} {a : State} (h : Inv t size a) (hs : size ≤ 2 ^ 32) (c : Call) (hv : c.Valid size)
    (he : perform t c = .ok t') (es : List Event) (hn : ∀ p, noted t p = ledger p es) : ∀ p, noted t' p = ledger p (es ++ c.events t) := by
  intro p
  cases c with
  | register w is =>
    obtain ⟨h1, h2⟩ := Register_does w is h hv
    have hr : t'.requests = t.requests := by
      by_cases ha : AtMost 63 a (is.map (Step.reg w.key))
      · obtain ⟨t1, e, -, rq⟩ := h1 ha
        rw [perform, e] at he; cases he; exact rq
      · rw [perform, h2 ha] at he; cases he
    simpa [noted, hr, Call.events] using hn p
  | registerBF w b =>
    obtain ⟨h1, h2⟩ := RegisterBF_does b w h hv.1 hs hv.2
    have hr : t'.requests = t.requests := by
      by_cases ha : AtMost 63 a (((List.range b.nbits.toNat).filter (bit b.data)).map (Step.reg w.key))
      · obtain ⟨t1, e, -, rq⟩ := h1 ha
        rw [perform, e] at he; cases he; exact rq
      · rw [perform, h2 ha] at he; cases he
    simpa [noted, hr, Call.events] using hn p
  | unregister w =>
    obtain ⟨t1, e, -, rq⟩ := unregister_spec h w
    rw [perform, e] at he
    cases he
    rw [Call.events, ledger_gone, ← hn p, noted, rq, noted_gone]
    rfl
  | next w own =>
    rcases nextPiece_spec h own hv w with ⟨i, e, -⟩ | ⟨e, -⟩
    · rw [perform, e, Res.ok_bind] at he
      cases he
      simp only [Call.events, e]
      rw [ledger_handed, ← hn p]
      exact noted_add t.requests p w.ptr i
    · rw [perform, e, Res.ok_bind] at he
      cases he
      simp only [Call.events, e, List.append_nil]
      exact hn p

theorem noted_all (cs : List Call) {t t' : Tracker} {size : Nat} {a : State} (h : Inv t size a) (hs : size ≤ 2 ^ 32) (hv : ∀ c ∈ cs, c.Valid size)
    (he : performAll t cs = .ok t') (es : List Event) (hn : ∀ p, noted t p = ledger p es) : ∀ p, noted t' p = ledger p (es ++ eventsAll t cs) := by
  induction cs generalizing t a es with
  | nil => cases he; simpa [eventsAll] using hn
  | cons c cs ih =>
    rw [performAll] at he
    obtain ⟨t1, e1, e2⟩ := Res.bind_eq_ok.mp he
    have i1 : Inv t1 size (c.steps.foldl Step.effect a) := by
      obtain ⟨h1, h2⟩ := perform_spec h hs c (hv c (by simp))
      by_cases ha : AtMost 63 a c.steps
      · obtain ⟨t2, e3, i3⟩ := h1 ha
        rw [e1] at e3; cases e3; exact i3
      · rw [h2 ha] at e1; cases e1
    have := ih i1 (fun c' hc => hv c' (by simp [hc])) e2 _ (noted_step h hs c (hv c (by simp)) e1 es hn)
    simp only [eventsAll, e1]
    rw [← List.append_assoc]
    exact this

/-- **C48** (partial: the notes).  After any history the tracker has noted for each peer exactly the pieces it was handed, in this order, marked
as requested unless the peer was unregistered in the meantime.  Missing from the property: that these notes keep a piece from being handed out
again; they do not (C48_refuted_again). -/
theorem C48_noted_partial (size : Nat) (hs : size ≤ 2 ^ 32) (cs : List Call) (hv : ∀ c ∈ cs, c.Valid size) :
    ∃ t0, NewPeerPieceTracker size = .ok t0 ∧ ∀ t, performAll t0 cs = .ok t → ∀ p, noted t p = ledger p (eventsAll t0 cs) := by
  obtain ⟨t0, e0, i0, r0⟩ := new_spec size
  refine ⟨t0, e0, fun t he p => ?_⟩
  have := noted_all cs i0 hs hv he [] (fun p => by simp [noted, r0, ledger]) p
  simpa using this

/-- two peers are handed piece 0, one of them goes -/
example : ∃ t0 t, NewPeerPieceTracker 2 = .ok t0 ∧
    performAll t0 [.register ⟨1, [1]⟩ [0], .register ⟨2, [2]⟩ [0], .next ⟨1, [1]⟩ ⟨[0, 0, 0, 2, 5, 0], 1, 2, 0⟩,
      .next ⟨2, [2]⟩ ⟨[0, 0, 0, 2, 5, 0], 1, 2, 0⟩, .unregister ⟨1, [1]⟩] = .ok t ∧ noted t 1 = [(0, false)] ∧ noted t 2 = [(0, true)] :=
  ⟨_, _, rfl, rfl, rfl, rfl⟩

/-! ### C49 -/

/-- the peers registered for piece `i` -/
def RegisteredFor (t : Tracker) (i : Nat) (k : Bytes) : Prop :=
  ∃ n nd, t.nodes[i]? = some n ∧ t.heap[n]? = some nd ∧ k ∈ nd.data.peerSet.map Prod.fst

theorem Inv.registered {t : Tracker} {size : Nat} {a : State} (h : Inv t size a) (i : Nat) (hi : i < size) (k : Bytes) : RegisteredFor t i k ↔ k ∈ a i := by
  obtain ⟨nd, s, -, hg, hd, hk, -, -⟩ := h.deref i hi
  constructor
  · rintro ⟨n, nd', hn, hg', hm⟩
    rw [h.node i hi] at hn
    cases hn
    rw [hg] at hg'
    cases hg'
    rw [hd] at hm
    rw [← hk]; exact hm
  · intro hm
    exact ⟨i, nd, h.node i hi, hg, by rw [hd]; exact hk ▸ hm⟩

/-- **C49**.  `Unregister` never panics; afterwards the peer is registered for no piece, everybody else exactly as before, the
pieces are filed accordingly, and `NextPiece` reports none to this peer. -/
theorem C49_unregister (size : Nat) (cs : List Call) (t : Tracker) (h : Reached size cs t) (w : PH) :
    ∃ t', Unregister t w = .ok t' ∧ Filed t' size (after (cs ++ [.unregister w])) ∧
      (∀ i, i < size → ∀ k, RegisteredFor t' i k ↔ RegisteredFor t i k ∧ k ≠ w.key) ∧
      ∀ own : Bitfield, size ≤ 8 * own.data.length → NextPiece t' own w = .ok (t', 0, false) := by
  obtain ⟨t', e, iv, -⟩ := unregister_spec h.inv w
  have he : after (cs ++ [.unregister w]) = (Step.unreg w.key).effect (after cs) := by
    unfold after; simp [Call.steps]
  refine ⟨t', e, he ▸ iv.filed, ?_, ?_⟩
  · intro i hi k
    rw [iv.registered i hi, h.inv.registered i hi]
    simp only [Step.effect, List.mem_filter, bne_iff_ne, ne_eq]
  · intro own hown
    rcases nextPiece_spec iv own hown w with ⟨i, -, -, -, hk, -⟩ | ⟨e', -⟩
    · simp [Step.effect] at hk
    · exact e'

/-- a reached state with registrations to remove -/
example : ∃ t, Reached 3 [.register ⟨1, [1]⟩ [0, 2], .register ⟨2, [2]⟩ [0]] t ∧ RegisteredFor t 0 [1] ∧ RegisteredFor t 0 [2] := by
  obtain ⟨t, h⟩ := C46_few_peers_partial 3 (by decide) [.register ⟨1, [1]⟩ [0, 2], .register ⟨2, [2]⟩ [0]]
    (by intro c hc; simp only [List.mem_cons, List.not_mem_nil, or_false] at hc; rcases hc with rfl | rfl <;> simp [Call.Valid])
    [[1], [2]] (by decide) (by intro c hc; simp only [List.mem_cons, List.not_mem_nil, or_false] at hc; rcases hc with rfl | rfl <;> simp [Call.who])
  refine ⟨t, h, ?_, ?_⟩ <;> rw [h.inv.registered 0 (by decide)] <;> simp [after, Call.steps, Step.effect, empty]

end Verif.PieceTracker
