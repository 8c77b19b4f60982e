import Verif.Spec.RateRead
import Verif.Props.RateLimit
/-
Property C81: the rate limit for reading, and `Run` and `Stop` (/repo/src/io/ratelimit.go).  A schedule of the read half is a schedule of
the write half, if one forgets how many bytes were read and leaves out the goroutines that are in `Run` or `Stop`.
-/
set_option autoImplicit false

namespace Verif.RateRead
open Verif.RateReadSpec
open Verif.RateLimit (NoLimit clamp)

/-! ### schedules -/

theorem Run.trans {s s' s'' : State} {a b : List Label} (h : Run s a s') (h2 : Run s' b s'') : Run s (a ++ b) s'' := by
  induction h2 with
  | nil => rw [List.append_nil]; exact h
  | snoc s'' s3 ls l hr hs ih => rw [← List.append_assoc]; exact .snoc _ _ _ _ _ ih hs

theorem Run.step {s s' s'' : State} {l : Label} {b : List Label} (h : Step s l s') (h2 : Run s' b s'') : Run s (l :: b) s'' :=
  Run.trans (.snoc _ _ _ [] _ (.nil _) h) h2

theorem go_pcs (s : State) (t : Nat) (pc : Pc) (u : Nat) : (s.go t pc).pcs u = if u = t then pc else s.pcs u := rfl

theorem admitted_append (a b : List Label) : admitted (a ++ b) = admitted a ++ admitted b := by
  induction a with
  | nil => rfl
  | cons l a ih => cases l <;> simp [admitted, ih]

theorem bytesRead_append (a b : List Label) : bytesRead (a ++ b) = bytesRead a ++ bytesRead b := by
  induction a with
  | nil => rfl
  | cons l a ih => cases l <;> simp [bytesRead, ih]

theorem buffers_append (a b : List Label) : buffers (a ++ b) = buffers a ++ buffers b := by
  induction a with
  | nil => rfl
  | cons l a ih => cases l <;> simp [buffers, ih]

/-! ### the same schedule in the write half -/

def erPc : Pc → RateLimit.Pc
  | .idle | .runStart | .running | .stopping => .idle
  | .start n => .start n
  | .direct n => .direct n
  | .directUsed n => .directUsed n
  | .directTotal n => .directTotal n
  | .wantLock n => .wantLock n
  | .spin n => .spin n
  | .admit n => .admit n
  | .unlock n => .unlock n
  | .addTotal n => .addTotal n
  | .out n => .out n
  | .setWant l => .setWant l
  | .setHold l => .setHold l
  | .setUnlock => .setUnlock

def er (s : State) : RateLimit.State := ⟨s.rate, s.used, s.total, s.lock, fun u => erPc (s.pcs u)⟩

def erL : Label → Option RateLimit.Label
  | .admit t n => some (.admit t n)
  | .got t n _ => some (.written t n)
  | .counted t n => some (.counted t n)
  | .setRate t l => some (.setRate t l)
  | .tick _ | .started _ => some .tick
  | .stopped _ _ | .control _ => none
  | .tau => some .tau

theorem er_go (s : State) (t : Nat) (pc : Pc) : er (s.go t pc) = (er s).go t (erPc pc) := by
  unfold er State.go RateLimit.State.go
  congr 1
  funext u
  simp only
  split <;> rfl

theorem er_same (s : State) (t : Nat) (pc : Pc) (h : erPc pc = erPc (s.pcs t)) : er (s.go t pc) = er s := by
  unfold er State.go
  congr 1
  funext u
  simp only
  split
  · rename_i e; rw [e, h]
  · rfl

theorem er_run {r : Int} {s : State} {ls : List Label} (h : Run (init r) ls s) : RateLimit.Run (RateLimit.init r) (ls.filterMap erL) (er s) := by
  induction h with
  | nil => exact .nil _
  | snoc s s' ls l hr hs ih =>
    have go : ∀ l' s'', erL l = some l' → er s' = s'' → RateLimit.Step (er s) l' s'' → RateLimit.Run (RateLimit.init r) ((ls ++ [l]).filterMap erL) (er s') := by
      intro l' s'' e1 e2 hs
      rw [List.filterMap_append, List.filterMap_cons, e1, e2]
      exact .snoc _ _ _ _ _ ih hs
    have stay : erL l = none → er s' = er s → RateLimit.Run (RateLimit.init r) ((ls ++ [l]).filterMap erL) (er s') := by
      intro e1 e2
      rw [List.filterMap_append, List.filterMap_cons, e1, e2]
      simpa using ih
    have pc : ∀ (t : Nat) (p : Pc), s.pcs t = p → (er s).pcs t = erPc p := fun t p h => congrArg erPc h
    cases hs with
    | call t n hp => exact go _ _ rfl (er_go _ _ _) (.call _ t n (pc t _ hp))
    | unlimited t n hp hr => exact go _ _ rfl (er_go _ _ _) (.unlimited _ t n (pc t _ hp) hr)
    | limited t n hp hr => exact go _ _ rfl (er_go _ _ _) (.limited _ t n (pc t _ hp) hr)
    | direct t n m hp hm => exact go _ _ rfl (er_go _ _ _) (.direct _ t n (pc t _ hp))
    | directUsed t n hp => exact go _ _ rfl (er_go _ _ _) (.directUsed _ t n (pc t _ hp))
    | directTotal t n hp => exact go _ _ rfl (er_go _ _ _) (.directTotal _ t n (pc t _ hp))
    | lock t n hp hl => exact go _ _ rfl (er_go _ _ _) (.lock _ t n (pc t _ hp) hl)
    | check t n hp hu => exact go _ _ rfl (er_go _ _ _) (.check _ t n (pc t _ hp) hu)
    | add t n hp => exact go _ _ rfl (er_go _ _ _) (.add _ t n (pc t _ hp))
    | unlock t n hp => exact go _ _ rfl (er_go _ _ _) (.unlock _ t n (pc t _ hp))
    | addTotal t n hp => exact go _ _ rfl (er_go _ _ _) (.addTotal _ t n (pc t _ hp))
    | out t n m hp hm => exact go _ _ rfl (er_go _ _ _) (.out _ t n (pc t _ hp))
    | setCall t l hp => exact go _ _ rfl (er_go _ _ _) (.setCall _ t l (pc t _ hp))
    | setLock t l hp hl => exact go _ _ rfl (er_go _ _ _) (.setLock _ t l (pc t _ hp) hl)
    | setStore t l hp => exact go _ _ rfl (er_go _ _ _) (.setStore _ t l (pc t _ hp))
    | setUnlock t hp => exact go _ _ rfl (er_go _ _ _) (.setUnlock _ t (pc t _ hp))
    | runCall u hp => exact stay rfl (er_same _ _ _ (by rw [hp]; rfl))
    | runStart u hp => exact go _ _ rfl (er_same _ _ _ (by show _ = erPc (s.pcs u); rw [hp]; rfl)) (.tick _)
    | tick u hp => exact go _ _ rfl rfl (.tick _)
    | stopCall t hp => exact stay rfl (er_same _ _ _ (by rw [hp]; rfl))
    | stop t u hp hu =>
      refine stay rfl ?_
      rw [er_same, er_same]
      · rw [hp]; rfl
      · rw [go_pcs]
        split
        · rfl
        · rw [hu]; rfl

theorem er_admitted (ls : List Label) : RateSpec.admitted (ls.filterMap erL) = admitted ls := by
  induction ls with
  | nil => rfl
  | cons l ls ih => cases l <;> simp [List.filterMap_cons, erL, admitted, RateSpec.admitted, ih]

theorem er_written (ls : List Label) : RateSpec.written (ls.filterMap erL) = buffers ls := by
  induction ls with
  | nil => rfl
  | cons l ls ih => cases l <;> simp [List.filterMap_cons, erL, buffers, RateSpec.written, ih]

theorem er_tick (ls : List Label) : RateLimit.Label.tick ∈ ls.filterMap erL ↔ ∃ x ∈ ls, Resets x := by
  rw [List.mem_filterMap]
  refine exists_congr fun l => and_congr_right fun _ => ?_
  cases l <;> simp [erL, Resets]

theorem er_since (ls : List Label) : RateSpec.sinceTick (ls.filterMap erL) = (sinceReset ls).filterMap erL := by
  induction ls with
  | nil => rfl
  | cons l ls ih =>
    rw [sinceReset]
    by_cases h : ∃ x ∈ ls, Resets x
    · rw [if_pos h, ← ih]
      rw [List.filterMap_cons]
      cases erL l with
      | none => rfl
      | some l' => show RateSpec.sinceTick (l' :: _) = _; rw [RateSpec.sinceTick, if_pos ((er_tick ls).mpr h)]
    · rw [if_neg h]
      have h' := mt (er_tick ls).mp h
      by_cases hl : Resets l
      · rw [if_pos hl, List.filterMap_cons]
        cases l <;> first | exact hl.elim | (simp only [erL]; rw [RateSpec.sinceTick, if_neg h', if_pos rfl])
      · rw [if_neg hl]
        have none_tick : RateLimit.Label.tick ∉ (l :: ls).filterMap erL := by
          rw [er_tick]
          rintro ⟨x, hx, hr⟩
          rcases List.mem_cons.mp hx with rfl | hx
          · exact hl hr
          · exact h ⟨x, hx, hr⟩
        generalize (l :: ls).filterMap erL = xs at none_tick
        cases xs with
        | nil => rfl
        | cons x xs =>
          rw [RateSpec.sinceTick, if_neg (fun hm => none_tick (List.mem_cons_of_mem _ hm)), if_neg (fun e => none_tick (by rw [e]; exact List.mem_cons_self ..))]

theorem er_mem {l' : RateLimit.Label} {ls : List Label} (h : l' ∈ ls.filterMap erL) : ∃ l ∈ ls, erL l = some l' := List.mem_filterMap.mp h

/-! ### what holds -/

/-- **C81** (partial: of the sizes of the buffers, not of the bytes that are read).  With a limit `r` that is not changed, at every moment of every schedule, whoever calls
`Run` and `Stop`, the buffers admitted since the budget was last reset, all but the last one, have together fewer than `r` bytes. -/
theorem C81_buffers_partial (r : Nat) (s : State) (ls : List Label) (h : Run (init r) ls s) (hset : ∀ t v, Label.setRate t v ∉ ls)
    (hbig : ∀ t n, Label.admit t n ∈ ls → r + n < 2 ^ 63) :
    ∀ a n, admitted (sinceReset ls) = a ++ [n] → a.sum < r := by
  have := (RateLimit.C53_window r (er s) (ls.filterMap erL) (er_run h) ?_ ?_).1
  · rw [er_since, er_admitted] at this
    exact this
  · intro t v hm
    obtain ⟨l, hl, e⟩ := er_mem hm
    cases l <;> cases e
    exact hset _ _ hl
  · intro t n hm
    obtain ⟨l, hl, e⟩ := er_mem hm
    cases l <;> cases e
    exact hbig _ _ hl

/-- of every read at most the buffer is filled -/
theorem read_le {s s' : State} {ls : List Label} (h : Run s ls s') : (bytesRead ls).sum ≤ (buffers ls).sum ∧
    ((bytesRead ls).sum = (buffers ls).sum ↔ ∀ t n m, Label.got t n m ∈ ls → m = n) := by
  induction h with
  | nil => simp [bytesRead, buffers]
  | snoc s1 s2 ls l hr hs ih =>
    rw [bytesRead_append, buffers_append, List.sum_append, List.sum_append]
    have quiet : (∀ t n m, l ≠ .got t n m) → bytesRead [l] = [] ∧ buffers [l] = [] := by
      intro h
      cases l <;> first | exact ⟨rfl, rfl⟩ | exact absurd rfl (h _ _ _)
    have old : (∀ t n m, l ≠ .got t n m) → ((∀ t n m, Label.got t n m ∈ ls ++ [l] → m = n) ↔ ∀ t n m, Label.got t n m ∈ ls → m = n) := by
      intro h
      refine forall_congr' fun t => forall_congr' fun n => forall_congr' fun m => ?_
      rw [List.mem_append, List.mem_singleton]
      exact ⟨fun g hm => g (.inl hm), fun g hm => hm.elim g (fun e => absurd e.symm (h t n m))⟩
    by_cases hg : ∃ t n m, l = .got t n m
    · obtain ⟨t, n, m, rfl⟩ := hg
      have hm : m ≤ n := by cases hs <;> assumption
      have e1 : (bytesRead [Label.got t n m]).sum = m := by simp [bytesRead]
      have e2 : (buffers [Label.got t n m]).sum = n := by simp [buffers]
      rw [e1, e2]
      refine ⟨by omega, ⟨fun e => ?_, fun g => ?_⟩⟩
      · intro t' n' m' h'
        rcases List.mem_append.mp h' with h' | h'
        · exact (ih.2.mp (by omega)) _ _ _ h'
        · cases List.mem_singleton.mp h'; omega
      · have := ih.2.mpr (fun t' n' m' h' => g t' n' m' (List.mem_append_left _ h'))
        have := g t n m (by simp)
        omega
    · have hg : ∀ t n m, l ≠ .got t n m := fun t n m e => hg ⟨t, n, m, e⟩
      rw [(quiet hg).1, (quiet hg).2, old hg]
      simpa using ih

/-- **C81** (partial: it is exact only if all buffers are filled).  Whenever no `Read` and no `SetReadRate` is in progress, the total counter is the sum of the sizes of the buffers of all reads
(modulo 2^64).  At most that many bytes were read, and exactly that many if and only if all reads have filled their buffers. -/
theorem C81_total_partial (r : Int) (ls : List Label) (s : State) (h : Run (init r) ls s)
    (hidle : ∀ t, s.pcs t ∈ [Pc.idle, .runStart, .running, .stopping]) :
    s.total = wrap64 ((buffers ls).sum : Nat) ∧ (bytesRead ls).sum ≤ (buffers ls).sum ∧
      ((bytesRead ls).sum = (buffers ls).sum ↔ ∀ t n m, Label.got t n m ∈ ls → m = n) := by
  obtain ⟨h1, h2⟩ := RateLimit.C54_total r _ _ (er_run h) (fun t => by
    show erPc (s.pcs t) = _
    have := hidle t
    simp only [List.mem_cons, List.not_mem_nil, or_false] at this
    rcases this with e | e | e | e <;> rw [e] <;> rfl)
  rw [er_admitted, er_written] at h2
  rw [er_admitted, ← h2.sum_nat] at h1
  exact ⟨h1, read_le h⟩

/-! ### what does not hold -/

/-- `K` goroutines have been admitted one after the other, and all of them are still waiting for their readers -/
theorem waiting (r : Nat) (hr : 0 < r) (K : Nat) : ∃ ls s, Run (init r) ls s ∧ s.rate = r ∧ s.used = 0 ∧ s.lock = none ∧ s.pcs 0 = .running ∧
    (∀ u, 0 < u → s.pcs u = if u ≤ K then .out 1 else .idle) ∧ (∀ t v, Label.setRate t v ∉ ls) ∧ (∀ t n, Label.admit t n ∈ ls → n = 1) ∧
    ∃ ls', ls = ls' ++ [.started 0] ∨ ls = ls' ++ [.tick 0] := by
  induction K with
  | zero =>
    refine ⟨_, _, .step (.runCall _ 0 rfl) <| .step (.runStart _ 0 rfl) <| .nil _, rfl, rfl, rfl, rfl, ?_, by simp, by simp, [.control 0], .inl rfl⟩
    intro u hu
    rw [go_pcs, if_neg (by omega), if_neg (by omega)]
    show ((init r).go 0 .runStart).pcs u = _
    rw [go_pcs, if_neg (by omega)]; rfl
  | succ K ih =>
    obtain ⟨ls, s, h, h1, h2, h3, h4, h5, h6, h7, -⟩ := ih
    have hp : s.pcs (K + 1) = .idle := by rw [h5 _ (by omega), if_neg (by omega)]
    have me : ∀ (s' : State) (pc : Pc), (s'.go (K + 1) pc).pcs (K + 1) = pc := fun s' pc => by rw [go_pcs, if_pos rfl]
    have run := Run.step (.call s (K + 1) 1 hp) <| .step (.limited _ (K + 1) 1 (me _ _) (by show s.rate ≠ -1; omega)) <| .step (.lock _ (K + 1) 1 (me _ _) h3) <|
      .step (.check _ (K + 1) 1 (me _ _) (by show s.used < s.rate; omega)) <| .step (.add _ (K + 1) 1 (me _ _)) <| .step (.unlock _ (K + 1) 1 (me _ _)) <|
      .step (.addTotal _ (K + 1) 1 (me _ _)) <| .step (.tick _ 0 (by
        simp only [State.go, show ¬ 0 = K + 1 by omega, if_false]; exact h4)) <| .nil _
    refine ⟨_, _, h.trans run, h1, rfl, rfl, ?_, ?_, ?_, ?_, _, .inr (by rw [show ∀ a b c d e f g x : Label, ls ++ [a, b, c, d, e, f, g, x] = (ls ++ [a, b, c, d, e, f, g]) ++ [x] by simp])⟩
    · simp only [State.go, show ¬ 0 = K + 1 by omega, if_false]; exact h4
    · intro u hu
      by_cases e : u = K + 1
      · subst e
        simp only [State.go, if_true, Nat.le_refl]
      · simp only [State.go, e, if_false]
        rw [h5 u hu]
        by_cases hk : u ≤ K
        · rw [if_pos hk, if_pos (by omega)]
        · rw [if_neg hk, if_neg (by omega)]
    · intro t v hm
      rcases List.mem_append.mp hm with hm | hm
      · exact h6 t v hm
      · simp at hm
    · intro t n hm
      rcases List.mem_append.mp hm with hm | hm
      · exact h7 t n hm
      · simp at hm; exact hm.2

/-- now all of them get their byte -/
theorem all_read (K : Nat) (s : State) (h : ∀ u, 0 < u → u ≤ K → s.pcs u = .out 1) : ∃ ls s', Run s ls s' ∧ (bytesRead ls).sum = K ∧
    (∀ x ∈ ls, ¬ Resets x ∧ (∀ t v, x ≠ .setRate t v) ∧ ∀ t n, x ≠ .admit t n) := by
  induction K generalizing s with
  | zero => exact ⟨[], s, .nil _, rfl, by simp⟩
  | succ K ih =>
    obtain ⟨ls, s', h1, h2, h3⟩ := ih (s.go (K + 1) .idle) (fun u h1 h2 => by rw [go_pcs, if_neg (by omega)]; exact h u h1 (by omega))
    refine ⟨_, s', .step (.out s (K + 1) 1 1 (h _ (by omega) (Nat.le_refl _)) (Nat.le_refl _)) h1, ?_, ?_⟩
    · show (1 :: bytesRead ls).sum = _
      simp [h2]; omega
    · intro x hx
      rcases List.mem_cons.mp hx with rfl | hx
      · exact ⟨id, by simp, by simp⟩
      · exact h3 x hx

theorem since_append (a b : List Label) (x : Label) (hx : Resets x) (hb : ∀ y ∈ b, ¬ Resets y) : sinceReset (a ++ x :: b) = b := by
  induction a with
  | nil => rw [List.nil_append, sinceReset, if_neg (fun ⟨y, hy, hr⟩ => hb y hy hr), if_pos hx]
  | cons y a ih => rw [List.cons_append, sinceReset, if_pos ⟨x, by simp, hx⟩]; exact ih

/-- **C81** is false, the limit: whatever it is, and although every buffer has one byte only and nobody changes it, any number of bytes can be read between two ticks. -/
theorem C81_refuted_window (r : Nat) (hr : 0 < r) (K : Nat) : ∃ ls s, Run (init r) ls s ∧ (∀ t v, Label.setRate t v ∉ ls) ∧ (∀ t n, Label.admit t n ∈ ls → n = 1) ∧
    (bytesRead (sinceReset ls)).sum = K := by
  obtain ⟨ls, s, h, -, -, -, -, h5, h6, h7, ls', h8⟩ := waiting r hr K
  obtain ⟨ks, s', k1, k2, k3⟩ := all_read K s (fun u h1 h2 => by rw [h5 u h1, if_pos h2])
  obtain ⟨x, hx, e⟩ : ∃ x, Resets x ∧ ls = ls' ++ [x] := by
    rcases h8 with e | e
    · exact ⟨.started 0, trivial, e⟩
    · exact ⟨.tick 0, trivial, e⟩
  refine ⟨_, s', h.trans k1, ?_, ?_, ?_⟩
  · intro t v hm
    rcases List.mem_append.mp hm with hm | hm
    · exact h6 t v hm
    · exact (k3 _ hm).2.1 t v rfl
  · intro t n hm
    rcases List.mem_append.mp hm with hm | hm
    · exact h7 t n hm
    · exact absurd rfl ((k3 _ hm).2.2 t n)
  · rw [e, List.append_assoc, List.singleton_append, since_append ls' ks x hx (fun y hy => (k3 y hy).1), k2]

/-- **C81** is false, the total: a read that gives nothing at all is counted with the whole buffer. -/
theorem C81_refuted_total (n : Nat) (hn : n < 2 ^ 63) : ∃ ls s, Run (init NoLimit) ls s ∧ (∀ t, s.pcs t = .idle) ∧ s.total = n ∧ (bytesRead ls).sum = 0 := by
  refine ⟨_, _, .step (.call _ 0 n rfl) <| .step (.unlimited _ 0 n rfl rfl) <| .step (.direct _ 0 n 0 rfl (Nat.zero_le _)) <| .step (.directUsed _ 0 n rfl) <|
    .step (.directTotal _ 0 n rfl) <| .nil _, ?_, ?_, rfl⟩
  · intro t
    by_cases h : t = 0
    · rw [go_pcs, if_pos h]
    · simp only [State.go, h, if_false, init]
  · show wrap64 (0 + n) = n
    rw [wrap64_of_in (by unfold InInt64; omega)]; omega

/-! ### Run and Stop -/

/-- without a new `Run`, nobody is in the loop of `Run` and the budget is never reset -/
theorem halted_step {s s' : State} {l : Label} (hs : Step s l s') (h : Halted s) (hl : ∀ u, l ≠ .started u) : Halted s' ∧ ¬ Resets l := by
  have keep : ∀ (s1 : State) (t : Nat) (pc : Pc), s1.pcs = s.pcs → pc ≠ .running → Halted (s1.go t pc) := by
    intro s1 t pc e hp u
    rw [go_pcs]
    split
    · exact hp
    · rw [e]; exact h u
  cases hs with
  | runStart u hp => exact absurd rfl (hl u)
  | tick u hp => exact absurd hp (h u)
  | stop t u hp hu => exact absurd hu (h u)
  | call t n hp => exact ⟨keep _ t _ rfl (by simp), id⟩
  | unlimited t n hp hr => exact ⟨keep _ t _ rfl (by simp), id⟩
  | limited t n hp hr => exact ⟨keep _ t _ rfl (by simp), id⟩
  | direct t n m hp hm => exact ⟨keep _ t _ rfl (by simp), id⟩
  | directUsed t n hp => exact ⟨keep _ t _ rfl (by simp), id⟩
  | directTotal t n hp => exact ⟨keep _ t _ rfl (by simp), id⟩
  | lock t n hp hl => exact ⟨keep _ t _ rfl (by simp), id⟩
  | check t n hp hu => exact ⟨keep _ t _ rfl (by simp), id⟩
  | add t n hp => exact ⟨keep _ t _ rfl (by simp), id⟩
  | unlock t n hp => exact ⟨keep _ t _ rfl (by simp), id⟩
  | addTotal t n hp => exact ⟨keep _ t _ rfl (by simp), id⟩
  | out t n m hp hm => exact ⟨keep _ t _ rfl (by simp), id⟩
  | setCall t l hp => exact ⟨keep _ t _ rfl (by simp), id⟩
  | setLock t l hp hl => exact ⟨keep _ t _ rfl (by simp), id⟩
  | setStore t l hp => exact ⟨keep _ t _ rfl (by simp), id⟩
  | setUnlock t hp => exact ⟨keep _ t _ rfl (by simp), id⟩
  | runCall u hp => exact ⟨keep _ u _ rfl (by simp), id⟩
  | stopCall t hp => exact ⟨keep _ t _ rfl (by simp), id⟩

theorem halted_run {s s' : State} {ls : List Label} (hs : Run s ls s') (h : Halted s) (hl : ∀ u, Label.started u ∉ ls) : Halted s' ∧ ∀ x ∈ ls, ¬ Resets x := by
  induction hs with
  | nil => exact ⟨h, by simp⟩
  | snoc s1 s2 ls l hr hs ih =>
    obtain ⟨h1, h2⟩ := ih (fun u hm => hl u (by simp [hm]))
    obtain ⟨h3, h4⟩ := halted_step hs h1 (fun u e => hl u (by simp [e]))
    refine ⟨h3, fun x hx => ?_⟩
    rcases List.mem_append.mp hx with hx | hx
    · exact h2 x hx
    · rw [List.mem_singleton.mp hx]; exact h4

theorem since_quiet (a b : List Label) (hb : ∀ y ∈ b, ¬ Resets y) : sinceReset (a ++ b) = sinceReset a ++ b := by
  induction a with
  | nil =>
    cases b with
    | nil => rfl
    | cons y b => rw [List.nil_append, show sinceReset (y :: b) = _ from rfl, sinceReset.eq_2, if_neg (fun ⟨z, hz, hr⟩ => hb z (List.mem_cons_of_mem _ hz) hr), if_neg (hb y (List.mem_cons_self ..))]; rfl
  | cons x a ih =>
    have : (∃ y ∈ a ++ b, Resets y) ↔ ∃ y ∈ a, Resets y := by
      constructor
      · rintro ⟨y, hy, hr⟩
        rcases List.mem_append.mp hy with hy | hy
        · exact ⟨y, hy, hr⟩
        · exact absurd hr (hb y hy)
      · rintro ⟨y, hy, hr⟩; exact ⟨y, List.mem_append_left _ hy, hr⟩
    rw [List.cons_append, sinceReset, sinceReset]
    by_cases h : ∃ y ∈ a, Resets y
    · rw [if_pos (this.mpr h), if_pos h, ih]
    · rw [if_neg (mt this.mp h), if_neg h]
      split <;> simp

/-- **C81** is false, `Stop`: once `Run` has been stopped, all reads together, however long the program runs, are admitted fewer than `r` bytes before the last buffer. -/
theorem C81_refuted_stop (r : Nat) (ls : List Label) (s : State) (h : Run (init r) ls s) (hh : Halted s) (ks : List Label) (s' : State) (k : Run s ks s')
    (hset : ∀ t v, Label.setRate t v ∉ ls ++ ks) (hbig : ∀ t n, Label.admit t n ∈ ls ++ ks → r + n < 2 ^ 63) (hno : ∀ u, Label.started u ∉ ks) :
    ∀ a n, admitted ks = a ++ [n] → a.sum < r := by
  intro a n e
  have hq := (halted_run k hh hno).2
  have := C81_buffers_partial r s' (ls ++ ks) (h.trans k) hset hbig (admitted (sinceReset ls) ++ a) n
    (by rw [since_quiet ls ks hq, admitted_append, e, List.append_assoc])
  rw [List.sum_append] at this
  omega

/-- a goroutine that waits in `Stop` -/
theorem stopping_step {s s' : State} {l : Label} (hs : Step s l s') (t : Nat) (hp : s.pcs t = .stopping) (hl : ∀ u, l ≠ .stopped t u) : s'.pcs t = .stopping := by
  have other : ∀ (u : Nat) (pc : Pc) (s1 : State), s1.pcs = s.pcs → s.pcs u ≠ .stopping → (s1.go u pc).pcs t = .stopping := by
    intro u pc s1 e hne
    rw [go_pcs, if_neg (by rintro rfl; exact hne hp), e, hp]
  cases hs with
  | stop t' u hp' hu =>
    have h1 : t ≠ t' := by rintro rfl; exact hl u rfl
    have h2 : t ≠ u := by rintro rfl; rw [hp] at hu; cases hu
    rw [go_pcs, if_neg h2, go_pcs, if_neg h1, hp]
  | tick u hu => exact hp
  | call u n hq => exact other u _ _ rfl (by rw [hq]; simp)
  | unlimited u n hq hr => exact other u _ _ rfl (by rw [hq]; simp)
  | limited u n hq hr => exact other u _ _ rfl (by rw [hq]; simp)
  | direct u n m hq hm => exact other u _ _ rfl (by rw [hq]; simp)
  | directUsed u n hq => exact other u _ _ rfl (by rw [hq]; simp)
  | directTotal u n hq => exact other u _ _ rfl (by rw [hq]; simp)
  | lock u n hq hl => exact other u _ _ rfl (by rw [hq]; simp)
  | check u n hq hu => exact other u _ _ rfl (by rw [hq]; simp)
  | add u n hq => exact other u _ _ rfl (by rw [hq]; simp)
  | unlock u n hq => exact other u _ _ rfl (by rw [hq]; simp)
  | addTotal u n hq => exact other u _ _ rfl (by rw [hq]; simp)
  | out u n m hq hm => exact other u _ _ rfl (by rw [hq]; simp)
  | setCall u v hq => exact other u _ _ rfl (by rw [hq]; simp)
  | setLock u v hq hl => exact other u _ _ rfl (by rw [hq]; simp)
  | setStore u v hq => exact other u _ _ rfl (by rw [hq]; simp)
  | setUnlock u hq => exact other u _ _ rfl (by rw [hq]; simp)
  | runCall u hq => exact other u _ _ rfl (by rw [hq]; simp)
  | runStart u hq => exact other u _ _ rfl (by rw [hq]; simp)
  | stopCall u hq => exact other u _ _ rfl (by rw [hq]; simp)

/-- **C81**, `Stop`: it can return exactly if somebody is in the loop of `Run`; if nobody is, it waits until somebody calls `Run` again, in every schedule. -/
theorem C81_stop (s : State) (t : Nat) (hp : s.pcs t = .stopping) :
    ((∃ u s', Step s (.stopped t u) s') ↔ ¬ Halted s) ∧
    (Halted s → ∀ ls s', Run s ls s' → (∀ u, Label.started u ∉ ls) → s'.pcs t = .stopping) := by
  refine ⟨⟨?_, ?_⟩, ?_⟩
  · rintro ⟨u, s', hs⟩ hh
    cases hs with
    | stop t u hp hu => exact hh u hu
  · intro hh
    obtain ⟨u, hu⟩ := Classical.not_forall.mp hh
    exact ⟨u, _, .stop s t u hp (Classical.not_not.mp hu)⟩
  · intro hh ls s' h
    induction h with
    | nil => exact fun _ => hp
    | snoc s1 s2 ls l hr hs ih =>
      intro hno
      have hno1 : ∀ u, Label.started u ∉ ls := fun u hm => hno u (by simp [hm])
      have h1 := (halted_run hr hh hno1).1
      refine stopping_step hs t (ih hno1) ?_
      rintro u rfl
      cases hs with
      | stop t u hp hu => exact h1 u hu

/-- a reader that waits for budget after `Run` was stopped, with all the budget used -/
theorem spin_halted {s s' : State} {l : Label} (hs : Step s l s') (he : RateLimit.Excl (er s)) (hh : Halted s) (hd : ∀ u, RateLimit.isDirect (erPc (s.pcs u)) = false)
    (hr : 0 ≤ s.rate) (hu : s.rate ≤ s.used) (t n : Nat) (hp : s.pcs t = .spin n) (hl : ∀ u, l ≠ .started u) :
    s'.pcs t = .spin n ∧ s'.rate = s.rate ∧ s'.used = s.used ∧ (∀ u, RateLimit.isDirect (erPc (s'.pcs u)) = false) ∧ (∀ u m, l ≠ .admit u m) ∧
      RateLimit.Excl (er s') := by
  have owner : ∀ u, RateLimit.holds (erPc (s.pcs u)) = true → u = t := fun u h => RateLimit.excl_unique he h (by show RateLimit.holds (erPc (s.pcs t)) = true; rw [hp]; rfl)
  have locked : s.lock = some t := (he t).mp (by show RateLimit.holds (erPc (s.pcs t)) = true; rw [hp]; rfl)
  have go : ∀ (u : Nat) (pc : Pc) (s1 : State), s1.pcs = s.pcs → s1.rate = s.rate → s1.used = s.used → s1.lock = s.lock → s.pcs u ≠ .spin n →
      RateLimit.isDirect (erPc pc) = false → RateLimit.holds (erPc pc) = RateLimit.holds (erPc (s.pcs u)) → (∀ u m, l ≠ .admit u m) →
      (s1.go u pc).pcs t = .spin n ∧ (s1.go u pc).rate = s.rate ∧ (s1.go u pc).used = s.used ∧ (∀ w, RateLimit.isDirect (erPc ((s1.go u pc).pcs w)) = false) ∧ (∀ u m, l ≠ .admit u m) ∧
      RateLimit.Excl (er (s1.go u pc)) := by
    intro u pc s1 e1 e2 e3 e4 hne hpc hk hadm
    refine ⟨by rw [go_pcs, if_neg (by rintro rfl; exact hne hp), e1, hp], e2, e3, ?_, hadm, ?_⟩
    · intro w
      rw [go_pcs]
      split
      · exact hpc
      · rw [e1]; exact hd w
    · rw [er_go]
      exact RateLimit.excl_keep he u (erPc pc) hk (er s1) e4 (by unfold er; simp only; rw [e1])
  cases hs with
  | runStart u hq => exact absurd rfl (hl u)
  | tick u hq => exact absurd hq (hh u)
  | stop t' u hq hu => exact absurd hu (hh u)
  | call u m hq => exact go u _ _ rfl rfl rfl rfl (by rw [hq]; simp) rfl (by rw [hq]; rfl) (by simp)
  | unlimited u m hq hr' => unfold NoLimit at hr'; omega
  | limited u m hq hr' => exact go u _ _ rfl rfl rfl rfl (by rw [hq]; simp) rfl (by rw [hq]; rfl) (by simp)
  | direct u m k hq hm => have := hd u; rw [hq] at this; cases this
  | directUsed u m hq => have := hd u; rw [hq] at this; cases this
  | directTotal u m hq => have := hd u; rw [hq] at this; cases this
  | lock u m hq hl' => rw [locked] at hl'; cases hl'
  | check u m hq hu' => omega
  | add u m hq => have e := owner u (by rw [hq]; rfl); rw [e, hp] at hq; cases hq
  | unlock u m hq => have e := owner u (by rw [hq]; rfl); rw [e, hp] at hq; cases hq
  | addTotal u m hq => exact go u _ _ rfl rfl rfl rfl (by rw [hq]; simp) rfl (by rw [hq]; rfl) (by simp)
  | out u m k hq hm => exact go u _ _ rfl rfl rfl rfl (by rw [hq]; simp) rfl (by rw [hq]; rfl) (by simp)
  | setCall u v hq => exact go u _ _ rfl rfl rfl rfl (by rw [hq]; simp) rfl (by rw [hq]; rfl) (by simp)
  | setLock u v hq hl' => rw [locked] at hl'; cases hl'
  | setStore u v hq => have e := owner u (by rw [hq]; rfl); rw [e, hp] at hq; cases hq
  | setUnlock u hq => have e := owner u (by rw [hq]; rfl); rw [e, hp] at hq; cases hq
  | runCall u hq => exact go u _ _ rfl rfl rfl rfl (by rw [hq]; simp) rfl (by rw [hq]; rfl) (by simp)
  | stopCall u hq => exact go u _ _ rfl rfl rfl rfl (by rw [hq]; simp) rfl (by rw [hq]; rfl) (by simp)

/-- **C81** is false, `Stop`: a state can be reached, with any limit, in which `Stop` has returned and a read waits, and in every continuation without a new
`Run` this read goes on waiting, nothing is admitted and the limit cannot be changed. -/
theorem C81_refuted_stopped (r : Nat) (hr : r < 2 ^ 63) : ∃ ls s, Run (init r) ls s ∧ Label.stopped 1 0 ∈ ls ∧ s.pcs 0 = .idle ∧ s.pcs 1 = .spin 1 ∧
    ∀ ks s', Run s ks s' → (∀ u, Label.started u ∉ ks) → s'.pcs 1 = .spin 1 ∧ s'.rate = r ∧ admitted ks = [] := by
  have base : ∃ ls s, Run (init r) ls s ∧ Label.stopped 1 0 ∈ ls ∧ s.pcs 0 = .idle ∧ s.pcs 1 = .spin 1 ∧ s.rate = r ∧ s.used = r ∧ (∀ u, u ≠ 1 → s.pcs u = .idle) := by
    by_cases h0 : r = 0
    · subst h0
      refine ⟨_, _, .step (.runCall _ 0 rfl) <| .step (.runStart _ 0 rfl) <| .step (.stopCall _ 1 rfl) <| .step (.stop _ 1 0 rfl rfl) <|
        .step (.call _ 1 1 rfl) <| .step (.limited _ 1 1 rfl (by show (0 : Int) ≠ -1; decide)) <| .step (.lock _ 1 1 rfl rfl) <| .nil _, by simp, rfl, rfl, rfl, rfl, ?_⟩
      intro u hu
      by_cases h : u = 0
      · simp only [State.go, h, if_true]; rfl
      · simp only [State.go, hu, h, if_false, init]
    · refine ⟨_, _, .step (.runCall _ 0 rfl) <| .step (.runStart _ 0 rfl) <| .step (.stopCall _ 1 rfl) <| .step (.stop _ 1 0 rfl rfl) <|
        .step (.call _ 1 r rfl) <| .step (.limited _ 1 r rfl (by show (r : Int) ≠ -1; omega)) <| .step (.lock _ 1 r rfl rfl) <|
        .step (.check _ 1 r rfl (by show (0 : Int) < r; omega)) <| .step (.add _ 1 r rfl) <| .step (.unlock _ 1 r rfl) <| .step (.addTotal _ 1 r rfl) <|
        .step (.out _ 1 r 0 rfl (Nat.zero_le _)) <|
        .step (.call _ 1 1 rfl) <| .step (.limited _ 1 1 rfl (by show (r : Int) ≠ -1; omega)) <| .step (.lock _ 1 1 rfl rfl) <| .nil _, by simp, rfl, rfl, rfl, ?_, ?_⟩
      · show wrap64 (0 + r) = r
        rw [wrap64_of_in (by unfold InInt64; omega)]; omega
      · intro u hu
        by_cases h : u = 0
        · simp only [State.go, h, if_true]; rfl
        · simp only [State.go, hu, h, if_false, init]
  obtain ⟨ls, s, h, h1, h2, h3, h4, h5, h6⟩ := base
  refine ⟨ls, s, h, h1, h2, h3, ?_⟩
  intro ks s' k hno
  have pcs : ∀ u, s.pcs u = .idle ∨ s.pcs u = .spin 1 := by
    intro u
    by_cases e : u = 1
    · rw [e]; exact .inr h3
    · exact .inl (h6 u e)
  have hh : Halted s := by intro u e; rcases pcs u with e' | e' <;> rw [e'] at e <;> cases e
  suffices s'.pcs 1 = .spin 1 ∧ s'.rate = r ∧ s'.used = r ∧ (∀ u, RateLimit.isDirect (erPc (s'.pcs u)) = false) ∧ admitted ks = [] ∧ RateLimit.Excl (er s') from
    ⟨this.1, this.2.1, this.2.2.2.2.1⟩
  induction k with
  | nil =>
    refine ⟨h3, h4, h5, ?_, rfl, RateLimit.excl_run (er_run h) (RateLimit.excl_init r)⟩
    intro u
    rcases pcs u with e | e <;> rw [e] <;> rfl
  | snoc s1 s2 ks l hrun hs ih =>
    have hno1 : ∀ u, Label.started u ∉ ks := fun u hm => hno u (by simp [hm])
    obtain ⟨k1, k2, k3, k4, k5, k6⟩ := ih hno1
    obtain ⟨m1, m2, m3, m4, m5, m6⟩ := spin_halted hs k6 (halted_run hrun hh hno1).1 k4 (by omega) (by omega) 1 1 k1 (fun u e => hno u (by simp [e]))
    refine ⟨m1, m2.trans k2, m3.trans k3, m4, ?_, m6⟩
    rw [admitted_append, k5]
    cases l <;> first | rfl | exact absurd rfl (m5 _ _)

/-! ### examples -/

/-- two reads of three bytes under a limit of four bytes, which give one byte and two bytes, then `Stop` -/
example : ∃ ls s, Run (init (4 : Nat)) ls s ∧ admitted (sinceReset ls) = [3, 3] ∧ (bytesRead (sinceReset ls)).sum = 3 ∧ s.total = 6 ∧ Halted s ∧ s.pcs 0 = .idle := by
  refine ⟨_, _, .step (.runCall _ 2 rfl) <| .step (.runStart _ 2 rfl) <| .step (.call _ 0 3 rfl) <| .step (.limited _ 0 3 rfl (by decide)) <| .step (.lock _ 0 3 rfl rfl) <| .step (.check _ 0 3 rfl (by decide)) <|
    .step (.add _ 0 3 rfl) <| .step (.unlock _ 0 3 rfl) <| .step (.call _ 1 3 rfl) <| .step (.limited _ 1 3 rfl (by decide)) <|
    .step (.lock _ 1 3 rfl rfl) <| .step (.check _ 1 3 rfl (by decide)) <| .step (.add _ 1 3 rfl) <| .step (.unlock _ 1 3 rfl) <| .step (.addTotal _ 1 3 rfl) <| .step (.out _ 1 3 1 rfl (by decide)) <|
    .step (.addTotal _ 0 3 rfl) <| .step (.out _ 0 3 2 rfl (by decide)) <| .step (.stopCall _ 1 rfl) <| .step (.stop _ 1 2 rfl rfl) <| .nil _, by decide, by decide, by decide, ?_, rfl⟩
  intro u
  by_cases h2 : u = 2
  · rw [h2]; decide
  · by_cases h1 : u = 1
    · rw [h1]; decide
    · by_cases h0 : u = 0
      · rw [h0]; decide
      · simp [h2, h1, h0, State.go, init]

/-- a `Stop` without `Run` -/
example : ∃ ls s, Run (init 4) ls s ∧ s.pcs 0 = .stopping ∧ Halted s := by
  refine ⟨_, _, .step (.stopCall _ 0 rfl) <| .nil _, rfl, ?_⟩
  intro u
  rw [go_pcs]
  split
  · simp
  · simp [init]

end Verif.RateRead
