import Verif.Model.Spinner
import Verif.Spec.Screen
import Verif.Lemmas.Lts
/-
C103: what `Spinner` shows.
-/
set_option autoImplicit false

namespace Verif.Spinner
open Verif.Screen Verif.Lts

theorem put_text (w : List Char) (hw : Printable w) : ∀ (ls : List (List Char)) (line : List Char) (col : Nat), col ≤ line.length →
    w.foldl Screen.put ⟨ls, line, col⟩ = ⟨ls, line.take col ++ w ++ line.drop (col + w.length), col + w.length⟩ := by
  induction w with
  | nil => intro ls line col h; simp
  | cons c w ih =>
    intro ls line col h
    obtain ⟨h1, h2, h3⟩ := hw c List.mem_cons_self
    have e : (⟨ls, line, col⟩ : Screen).put c = ⟨ls, line.take col ++ c :: line.drop (col + 1), col + 1⟩ := by
      unfold Screen.put
      rw [if_neg h1, if_neg h2, if_neg h3]
      simp [Nat.sub_eq_zero_of_le h]
    have hl : (line.take col).length = col := by simp; omega
    rw [List.foldl_cons, e, ih (fun d hd => hw d (List.mem_cons_of_mem _ hd)) _ _ _ (by simp; omega)]
    congr 1
    · have e1 : (line.take col ++ c :: line.drop (col + 1)).take (col + 1) = line.take col ++ [c] := by
        rw [List.take_append, hl, show col + 1 - col = 1 by omega, List.take_of_length_le (by rw [hl]; omega)]
        rfl
      have e2 : (line.take col ++ c :: line.drop (col + 1)).drop (col + 1 + w.length) = line.drop (col + (c :: w).length) := by
        rw [List.drop_append, hl, List.drop_eq_nil_of_le (by rw [hl]; omega), show col + 1 + w.length - col = w.length + 1 by omega, List.drop_succ_cons, List.drop_drop,
          List.nil_append]
        congr 1
        simp
        omega
      rw [e1, e2]
      simp
    · simp; omega

theorem shown_append (a b : List Char) : shown (a ++ b) = b.foldl Screen.put (shown a) := by rw [shown, List.foldl_append]; rfl

theorem put_cr (s : Screen) : s.put '\r' = { s with col := 0 } := by unfold Screen.put; rw [if_pos rfl]

theorem put_nl (s : Screen) : s.put '\n' = ⟨s.lines ++ [s.line], [], 0⟩ := by unfold Screen.put; rw [if_neg (by decide), if_pos rfl]

theorem put_bs (s : Screen) : s.put '\x08' = { s with col := s.col - 1 } := by unfold Screen.put; rw [if_neg (by decide), if_neg (by decide), if_pos rfl]

/-- the cells of a frame: `n` dots, then blanks -/
def cells (r : Char) (msg : List Char) (n k : Nat) : List Char := r :: ' ' :: (msg ++ List.replicate n '.' ++ List.replicate k ' ')

theorem printable_cells (r : Char) (msg : List Char) (n k : Nat) (hr : Printable [r]) (hm : Printable msg) : Printable (cells r msg n k) := by
  intro c hc
  simp only [cells, List.mem_cons, List.mem_append, List.mem_replicate] at hc
  rcases hc with rfl | rfl | (hc | ⟨-, rfl⟩) | ⟨-, rfl⟩
  · exact hr c (by simp)
  · decide
  · exact hm c hc
  · decide
  · decide

theorem dots_take (i : Nat) (hi : i < 3) : dots.take (i + 1) = List.replicate (i + 1) '.' := by
  match i, hi with
  | 0, _ => rfl
  | 1, _ => rfl
  | 2, _ => rfl

/-- a frame over what may be left of the one before -/
theorem put_frame (r : Char) (msg : List Char) (i : Nat) (hi : i < 3) (hr : Printable [r]) (hm : Printable msg) (ls : List (List Char)) (line : List Char) (col : Nat)
    (h : line = [] ∨ ∃ x n k, line = cells x msg n k ∧ n ≤ i + 3) :
    ∃ k, (frame r msg i).foldl Screen.put ⟨ls, line, col⟩ = ⟨ls, cells r msg (i + 1) k, msg.length + (i + 3)⟩ := by
  have e : frame r msg i = '\r' :: (cells r msg (i + 1) 2 ++ ['\x08', '\x08']) := by
    rw [frame, dots_take i hi, cells, backs]
    simp [List.replicate]
  have hlen : (cells r msg (i + 1) 2).length = msg.length + i + 5 := by simp [cells]; omega
  rw [e, List.foldl_cons, put_cr, List.foldl_append]
  simp only
  rw [put_text _ (printable_cells r msg (i + 1) 2 hr hm) ls line 0 (Nat.zero_le _)]
  simp only [List.foldl_cons, List.foldl_nil, put_bs, hlen, List.take_zero, List.nil_append, Nat.zero_add]
  rcases h with rfl | ⟨x, n, k, rfl, hn⟩
  · exact ⟨2, by simp; omega⟩
  · refine ⟨2 + (k - (i + 3 - n)), ?_⟩
    have e2 : (cells x msg n k).drop (msg.length + i + 5) = List.replicate (k - (i + 3 - n)) ' ' := by
      have e3 : cells x msg n k = (x :: ' ' :: (msg ++ List.replicate n '.')) ++ List.replicate k ' ' := by simp [cells]
      rw [e3, List.drop_append, List.drop_eq_nil_of_le (by simp; omega), List.nil_append, List.drop_replicate]
      congr 1
      simp
      omega
    rw [e2]
    congr 1
    simp only [cells, List.cons_append, List.append_assoc, List.replicate_append_replicate]

/-- what is on the screen -/
inductive Shows (msg : List Char) : Pc → List Char → Screen → Prop
  | nothing (i : Nat) : Shows msg (.top i) [] ⟨[], [], 0⟩
  | start (i : Nat) (hi : i < 3) : Shows msg (.round i symbols) [] ⟨[], [], 0⟩
  | top (i k : Nat) (r : Char) (out : List Char) (ho : out ≠ []) (hr : r ∈ symbols) (hi : i < 3) : Shows msg (.top i) out ⟨[], cells r msg (i + 1) k, msg.length + (i + 3)⟩
  | round (i n k : Nat) (r : Char) (out : List Char) (ho : out ≠ []) (hr : r ∈ symbols) (rs : List Char) (hs : ∃ p, symbols = p ++ rs) (hi : i < 3) (hn : 1 ≤ n ∧ n ≤ 3)
      (he : rs ≠ symbols → n = i + 1) : Shows msg (.round i rs) out ⟨[], cells r msg n k, msg.length + (n + 2)⟩
  | early : Shows msg .returned (last msg) ⟨['✓' :: ' ' :: msg], [], 0⟩
  | done (n k : Nat) (out : List Char) (ho : out ≠ []) (hn : 1 ≤ n ∧ n ≤ 3) : Shows msg .returned (out ++ last msg) ⟨[cells '✓' msg n k], [], 0⟩

theorem printable_symbols : ∀ r ∈ symbols, Printable [r] := by
  intro r hr c hc
  rw [List.mem_singleton.mp hc]
  clear hc c
  revert r
  decide

theorem shows_step {msg : List Char} (hm : Printable msg) {s s' : State} (h : Shows msg s.pc s.out (shown s.out)) (hs : Step msg s s') : Shows msg s'.pc s'.out (shown s'.out) := by
  obtain ⟨pc, ready, out⟩ := s
  generalize hsc : shown out = sc at h
  cases hs with
  | tell => simp only at h ⊢; rw [hsc]; exact h
  | stop i hp hr =>
    simp only at hp h ⊢
    subst hp
    rw [shown_append, hsc]
    have hw : Printable ('✓' :: ' ' :: msg) := by
      intro c hc
      rcases List.mem_cons.mp hc with rfl | hc
      · decide
      · rcases List.mem_cons.mp hc with rfl | hc
        · decide
        · exact hm c hc
    have e : last msg = '\r' :: (('✓' :: ' ' :: msg) ++ ['\n']) := by simp [last]
    rw [e, List.foldl_cons, put_cr, List.foldl_append]
    cases h with
    | nothing =>
      simp only
      rw [put_text _ hw _ _ _ (Nat.zero_le _)]
      simp only [List.foldl_cons, List.foldl_nil, put_nl]
      have := Shows.early (msg := msg)
      rw [e] at this
      simpa using this
    | top i k r out ho hr hi =>
      simp only
      rw [put_text _ hw _ _ _ (Nat.zero_le _)]
      simp only [List.foldl_cons, List.foldl_nil, put_nl, List.nil_append, List.take_zero, Nat.zero_add]
      have e2 : '✓' :: ' ' :: msg ++ (cells r msg (i + 1) k).drop ('✓' :: ' ' :: msg).length = cells '✓' msg (i + 1) k := by
        simp [cells]
      rw [e2]
      exact .done _ _ _ ho (by omega)
  | again i hp hr =>
    simp only at hp h ⊢
    subst hp
    rw [hsc]
    cases h with
    | nothing => exact .start _ (Nat.mod_lt _ (by decide))
    | top i k r out ho hr hi =>
      exact .round ((i + 1) % 3) (i + 1) k r out ho hr symbols ⟨[], rfl⟩ (Nat.mod_lt _ (by decide)) (by omega) (fun h => absurd rfl h)
  | draw i r rs hp =>
    simp only at hp h ⊢
    subst hp
    rw [shown_append, hsc]
    generalize hq : Pc.round i (r :: rs) = q at h
    have fin : ∀ (ls : List (List Char)) (line : List Char) (col : Nat), i < 3 → (∃ p, symbols = p ++ (r :: rs)) → ls = [] →
        (line = [] ∨ ∃ x n k, line = cells x msg n k ∧ n ≤ i + 3) → Shows msg (.round i rs) (out ++ frame r msg i) ((frame r msg i).foldl Screen.put ⟨ls, line, col⟩) := by
      rintro ls line col hi ⟨p, hp⟩ rfl h
      have hr : r ∈ symbols := by rw [hp]; simp
      obtain ⟨k, e⟩ := put_frame r msg i hi (printable_symbols r hr) hm [] line col h
      rw [e]
      exact .round i (i + 1) k r _ (by simp [frame]) hr rs ⟨p ++ [r], by rw [hp]; simp⟩ hi (by omega) (fun _ => rfl)
    cases h with
    | nothing => cases hq
    | top => cases hq
    | early => cases hq
    | done => cases hq
    | start i' hi =>
      have e := Pc.round.inj hq
      obtain ⟨rfl, e2⟩ := e
      exact fin _ _ _ hi ⟨[], by rw [e2]; rfl⟩ rfl (.inl rfl)
    | round i' n k x out' ho hx rs' hs hi hn he =>
      obtain ⟨rfl, rfl⟩ := Pc.round.inj hq
      exact fin _ _ _ hi hs rfl (.inr ⟨x, n, k, rfl, by omega⟩)
  | next i hp =>
    simp only at hp h ⊢
    subst hp
    rw [hsc]
    cases h with
    | round i n k r out' ho hr rs hs hi hn he =>
      rw [he (by decide)]
      exact .top i k r _ ho hr hi

theorem shows_reach {msg : List Char} (hm : Printable msg) {s : State} (hr : Reach (Step msg) init s) : Shows msg s.pc s.out (shown s.out) :=
  Reach.keep (Q := fun s => Shows msg s.pc s.out (shown s.out)) (fun _ _ h hs => shows_step hm h hs) hr (.nothing 0)

/-- **C103**: while it runs, there is nothing on the screen, or one line: one of the symbols, a blank, the message, one to three dots, and blanks. -/
theorem C103_running (msg : List Char) (hm : Printable msg) (s : State) (hr : Reach (Step msg) init s) (hn : s.pc ≠ .returned) :
    shown s.out = ⟨[], [], 0⟩ ∨ ∃ r ∈ symbols, ∃ n k, 1 ≤ n ∧ n ≤ 3 ∧
      shown s.out = ⟨[], [r, ' '] ++ msg ++ List.replicate n '.' ++ List.replicate k ' ', (msg.length + 2) + n⟩ := by
  have h := shows_reach hm hr
  generalize shown s.out = sc at h ⊢
  generalize s.pc = pc at h hn
  generalize s.out = out at h
  cases h with
  | nothing => exact .inl rfl
  | start => exact .inl rfl
  | top i k r _ ho hr hi => exact .inr ⟨r, hr, i + 1, k, by omega, by omega, by rw [cells]; simp; omega⟩
  | round i n k r _ ho hr rs hs hi hn' he => exact .inr ⟨r, hr, n, k, by omega, by omega, by rw [cells]; simp; omega⟩
  | early => exact absurd rfl hn
  | done => exact absurd rfl hn

/-- **C103** (partial: when it is told to stop before it has shown anything): in the end there is the check mark and the message, and the cursor is on the next line.
Otherwise one to three dots are left behind the message. -/
theorem C103_stopped_partial (msg : List Char) (hm : Printable msg) (s : State) (hr : Reach (Step msg) init s) (hn : s.pc = .returned) :
    (s.out = last msg → shown s.out = ⟨[['✓', ' '] ++ msg], [], 0⟩) ∧
    (s.out ≠ last msg → ∃ n k, 1 ≤ n ∧ n ≤ 3 ∧ shown s.out = ⟨[['✓', ' '] ++ msg ++ List.replicate n '.' ++ List.replicate k ' '], [], 0⟩) := by
  have h := shows_reach hm hr
  rw [hn] at h
  generalize shown s.out = sc at h ⊢
  generalize s.out = out at h ⊢
  cases h with
  | early => exact ⟨fun _ => by simp, fun h => absurd rfl h⟩
  | done n k out ho hn' =>
    refine ⟨fun e => ?_, fun _ => ⟨n, k, hn'.1, hn'.2, by simp [cells]⟩⟩
    have := congrArg List.length e
    cases out with
    | nil => exact absurd rfl ho
    | cons c out => simp at this; omega

theorem draws (msg : List Char) (i : Nat) (rs : List Char) : ∀ out, ∃ t, Reach (Step msg) ⟨.round i rs, false, out⟩ ⟨.round i [], false, out ++ t⟩ ∧ (rs ≠ [] → t ≠ []) := by
  induction rs with
  | nil => intro out; exact ⟨[], by rw [List.append_nil]; exact .refl, fun h => absurd rfl h⟩
  | cons r rs ih =>
    intro out
    obtain ⟨t, h, _⟩ := ih (out ++ frame r msg i)
    refine ⟨frame r msg i ++ t, ?_, fun _ => by simp [frame]⟩
    rw [← List.append_assoc]
    exact Reach.head (.draw i r rs rfl) h

/-- **C103** is false: whatever the message, the last line need not be the check mark and the message. -/
theorem C103_refuted (msg : List Char) (hm : Printable msg) :
    ∃ s, Reach (Step msg) init s ∧ s.pc = .returned ∧ shown s.out ≠ ⟨[['✓', ' '] ++ msg], [], 0⟩ := by
  obtain ⟨t, h, ht⟩ := draws msg 1 symbols []
  have h1 : Reach (Step msg) init ⟨.returned, true, t ++ last msg⟩ := by
    refine Reach.head (.again 0 rfl rfl) (Reach.trans h ?_)
    exact Reach.head (.next 1 rfl) (Reach.head (.tell rfl) (Reach.single (.stop 1 rfl rfl)))
  refine ⟨_, h1, rfl, ?_⟩
  obtain ⟨n, k, hn, _, e⟩ := (C103_stopped_partial msg hm _ h1 rfl).2 (by
    intro e
    have h2 := congrArg List.length e
    have h3 := List.length_pos_iff.mpr (ht (by decide))
    rw [List.length_append] at h2
    omega)
  rw [e]
  intro e
  have := congrArg List.length (List.cons.inj (Screen.mk.inj e).1).1
  simp at this
  omega

/-- **C103**: it returns only when it has been told to. -/
theorem C103_waits (msg : List Char) (s : State) (hr : Reach (Step msg) init s) (hn : s.pc = .returned) : s.ready = true := by
  suffices h : s.pc = .returned → s.ready = true from h hn
  clear hn
  induction hr with
  | refl => nofun
  | tail s1 s2 _ hs ih =>
    cases hs with
    | tell h => intro _; rfl
    | stop i hp h => intro _; exact h
    | again i hp h => nofun
    | draw i r rs hp => nofun
    | next i hp => nofun

/-- **C103**: when it has been told to, it returns, whatever happens. -/
theorem C103_returns (msg : List Char) (s : State) (hr : Reach (Step msg) init s) (h : s.ready = true) : Inevitable (Step msg) (fun s => s.pc = .returned) s := by
  have atTop : ∀ (i : Nat) (out : List Char), Inevitable (Step msg) (fun s => s.pc = .returned) ⟨.top i, true, out⟩ := by
    intro i out
    refine .next _ ⟨_, .stop i rfl rfl⟩ ?_
    intro s' hs
    cases hs with
    | tell h => cases h
    | stop i hp h => exact .now _ rfl
    | again i hp h => cases h
    | draw i r rs hp => cases hp
    | next i hp => cases hp
  have inRound : ∀ (i : Nat) (rs : List Char) (out : List Char), Inevitable (Step msg) (fun s => s.pc = .returned) ⟨.round i rs, true, out⟩ := by
    intro i rs
    induction rs with
    | nil =>
      intro out
      refine .next _ ⟨_, .next i rfl⟩ ?_
      intro s' hs
      cases hs with
      | tell h => cases h
      | stop i hp h => cases hp
      | again i hp h => cases hp
      | draw i r rs hp => cases hp
      | next i hp => exact atTop _ _
    | cons r rs ih =>
      intro out
      refine .next _ ⟨_, .draw i r rs rfl⟩ ?_
      intro s' hs
      cases hs with
      | tell h => cases h
      | stop i hp h => cases hp
      | again i hp h => cases hp
      | draw i r rs hp => cases hp; exact ih _
      | next i hp => cases hp
  obtain ⟨pc, ready, out⟩ := s
  cases h
  cases pc with
  | top i => exact atTop i out
  | round i rs => exact inRound i rs out
  | returned => exact .now _ rfl

/-- the message of an example -/
def exMsg : List Char := ['w', 'a', 'i', 't']

theorem exMsg_printable : Printable exMsg := by unfold Printable; decide

/-- after the first round, and told to stop -/
def exRound : State := ⟨.top 1, true, symbols.flatMap fun r => frame r exMsg 1⟩

theorem exRound_reach : Reach (Step exMsg) init exRound := by
  refine Reach.head (.again 0 rfl rfl) ?_
  iterate 8 refine Reach.head (.draw 1 _ _ rfl) ?_
  exact Reach.head (.next 1 rfl) (Reach.single (.tell rfl))

/-- the hypotheses of `C103_running`, `C103_returns` -/
example : Printable exMsg ∧ Reach (Step exMsg) init exRound ∧ exRound.pc ≠ .returned ∧ exRound.ready = true :=
  ⟨exMsg_printable, exRound_reach, by decide, rfl⟩

/-- the hypotheses of `C103_stopped_partial` and `C103_waits`, and both of its cases -/
example : (∃ s, Reach (Step exMsg) init s ∧ s.pc = .returned ∧ s.out = last exMsg) ∧ ∃ s, Reach (Step exMsg) init s ∧ s.pc = .returned ∧ s.out ≠ last exMsg :=
  ⟨⟨⟨.returned, true, last exMsg⟩, Reach.head (.tell rfl) (Reach.single (.stop 0 rfl rfl)), rfl, rfl⟩,
    ⟨_, Reach.trans exRound_reach (Reach.single (.stop 1 rfl rfl)), rfl, by decide⟩⟩

/-- what is left on the screen then -/
example : shown (exRound.out ++ last exMsg) = ⟨[['✓', ' ', 'w', 'a', 'i', 't', '.', '.', ' ', ' ']], [], 0⟩ := by decide +kernel

end Verif.Spinner
