import Verif.Lemmas.Races
/-
C89: which memory the goroutines of a running client access at the same time.

A data race is what the Go memory model calls one: two goroutines are about to access the same memory, not both only read it, and not both accesses are atomic
operations.  Between accesses that are ordered by locks, channels or `go` statements there is none.
-/
set_option autoImplicit false

namespace Verif.Races
open Verif.Lts

/-- `a` is an access to `l` -/
def Act.Touches (a : Act) (l : Loc) : Prop := a = .rd l ∨ a = .wr l ∨ a = .at l

/-- not both only read `l`, and not both are atomic -/
def Conflict (l : Loc) (a b : Act) : Prop := ¬ (a = .rd l ∧ b = .rd l) ∧ ¬ (a = .at l ∧ b = .at l)

/-- two goroutines are about to access the same memory in this way -/
def State.Race (σ : State) (l : Loc) : Prop :=
  ∃ i j t u a b pc pc', i ≠ j ∧ σ.Can i t a pc ∧ σ.Can j u b pc' ∧ a.Touches l ∧ b.Touches l ∧ Conflict l a b ∧ (l.perConn = true → t.conn = u.conn)

/-- the memory that is accessed without need of a permission because it is never written, or always by atomic operations -/
def free (l : Loc) (a : Act) : Bool :=
  match l with
  | .config | .bits | .files | .wRate => a = .rd l
  | .procs | .wTotal => a = .at l
  | _ => false

/-- the permissions to write and to read -/
def wPerm : Loc → Option (Perm × Perm)
  | .handler => some (.hW, .hR)
  | .readLoop => some (.lW, .lR)
  | .pieceBuf => some (.pb, .pb)
  | .peerBits => some (.bs, .bs)
  | .readBuf => some (.rb, .rb)
  | .tracker => some (.mx, .mx)
  | .rUsed => some (.lim, .lim)
  | _ => none

/-- the memory that is left -/
def racy (l : Loc) : Bool := l = .phs ∨ l = .head ∨ l = .wUsed

/-- the accesses of an edge are permitted -/
def okAccess (k : Kind) : Edge → Bool
  | (n, .rd l, _) => racy l || free l (.rd l) || (match wPerm l with | some (w, r) => w ∈ perm k n ∨ r ∈ perm k n | none => false)
  | (n, .wr l, _) => racy l || (match wPerm l with | some (w, _) => w ∈ perm k n | none => false)
  | (n, .at l, _) => racy l || free l (.at l) || (match wPerm l with | some (w, _) => w ∈ perm k n | none => false)
  | _ => true

theorem okAcc (k : Kind) {e : Edge} (h : e ∈ code k) : okAccess k e = true := by
  have : (code k).all (okAccess k) = true := by cases k <;> decide +kernel
  exact List.all_eq_true.1 this e h

theorem wPerm_excl {l : Loc} {w r : Perm} (h : wPerm l = some (w, r)) : excl w w = true ∧ excl w r = true ∧ excl r w = true ∧ w.perConn = l.perConn ∧ r.perConn = l.perConn := by
  cases l <;> simp [wPerm] at h <;> obtain ⟨rfl, rfl⟩ := h <;> decide

theorem no_clash {σ : State} (hr : Reach Step init σ) {i j : Nat} (hij : i ≠ j) {t u : Thread} {a b : Act} {pc pc' : Nat} (h : σ.Can i t a pc) (h' : σ.Can j u b pc')
    {p q : Perm} (hp : p ∈ perm t.kind t.pc) (hq : q ∈ perm u.kind u.pc) (hc : p.perConn = true → t.conn = u.conn) : excl p q = false := by
  rcases hb : excl p q with _ | _
  · rfl
  · exfalso
    refine (reach_inv hr).sep (.thread i) (.thread j) (by simpa using hij) (p, if p.perConn then t.conn else 0) ?_ (q, if q.perConn then u.conn else 0) ?_ ⟨hb, ?_⟩
    · rw [held_can h]; exact mem_inst.2 ⟨hp, rfl⟩
    · rw [held_can h']; exact mem_inst.2 ⟨hq, rfl⟩
    · simp only [← excl_perConn hb]
      split
      · rename_i h; exact hc h
      · rfl

/-- C89, what holds: whatever connections there are and whatever they send, the only memory that two goroutines access at the same time, one of them writing, is
the listener's list of handlers, the head of the bitfield message in our bitfield, and the rate limiter's count of written bytes. -/
theorem C89_race_free_partial (σ : State) (hr : Reach Step init σ) (l : Loc) (h1 : l ≠ .phs) (h2 : l ≠ .head) (h3 : l ≠ .wUsed) : ¬ σ.Race l := by
  rintro ⟨i, j, t, u, a, b, pc, pc', hij, h, h', ha, hb, hc, hcn⟩
  have oa := okAcc _ h.2
  have ob := okAcc _ h'.2
  have hracy : racy l = false := by simp [racy, h1, h2, h3]
  rcases hw : wPerm l with _ | ⟨w, r⟩
  · -- never written, or always by atomic operations
    rcases ha with rfl | rfl | rfl <;> rcases hb with rfl | rfl | rfl <;> simp [okAccess, hracy, hw] at oa ob
    · exact hc.1 ⟨rfl, rfl⟩
    · revert oa ob; cases l <;> simp [free]
    · revert oa ob; cases l <;> simp [free]
    · exact hc.2 ⟨rfl, rfl⟩
  · obtain ⟨e1, e2, e3, e4, e5⟩ := wPerm_excl hw
    have hfree : ∀ a, free l a = false := by intro a; cases l <;> simp_all [wPerm, free]
    have cw : w.perConn = true → t.conn = u.conn := fun h => hcn (e4 ▸ h)
    have cr : r.perConn = true → t.conn = u.conn := fun h => hcn (e5 ▸ h)
    have nc := fun {p q} hp hq hc => no_clash hr hij h h' (p := p) (q := q) hp hq hc
    rcases ha with rfl | rfl | rfl <;> rcases hb with rfl | rfl | rfl <;> simp [okAccess, hracy, hw, hfree] at oa ob
    · exact hc.1 ⟨rfl, rfl⟩
    all_goals
      first
      | (have := nc oa ob cw; simp [e1] at this; done)
      | (rcases oa with oa | oa
         · have := nc oa ob cw; simp [e1] at this
         · have := nc oa ob cr; simp [e3] at this)
      | (rcases ob with ob | ob
         · have := nc oa ob cw; simp [e1] at this
         · have := nc oa ob cw; simp [e2] at this)

/-- C89, what holds: nobody unlocks a mutex that is not locked (which ends a Go program), and the sends to the two buffered channels of a read loop never wait. -/
theorem C89_room_partial (σ : State) (hr : Reach Step init σ) (i : Nat) (t : Thread) (b : Box) (pc : Nat) (h : σ.Can i t (.put b) pc) : σ.full b (b.ix t.conn) = false := by
  rcases hb : σ.full b (b.ix t.conn) with _ | _
  · rfl
  · exfalso
    have key : (code t.kind).all (fun e => match e with | (n, .put b, _) => (boxPerm b).all (· ∈ perm t.kind n) | _ => true) = true := by
      generalize t.kind = k
      cases k <;> decide +kernel
    have h1 := List.all_eq_true.1 key _ h.2
    simp only [List.all_eq_true, decide_eq_true_eq] at h1
    have hx : ∃ p, p ∈ boxPerm b ∧ excl p p = true := by cases b <;> exact ⟨_, List.mem_singleton.2 rfl, rfl⟩
    obtain ⟨p, hp, he⟩ := hx
    refine (reach_inv hr).sep (.thread i) (.box b (b.ix t.conn)) (by simp) (p, if p.perConn then t.conn else 0) ?_ (p, if p.perConn then t.conn else 0) ?_ ⟨he, rfl⟩
    · rw [held_can h]; exact mem_inst.2 ⟨h1 p hp, rfl⟩
    · simp only [held, hb, if_true, inst_ix]; exact mem_inst.2 ⟨hp, rfl⟩

/-! ### The races there are -/

/-- goroutine `i` takes the `n`-th edge of its code (not for unbuffered channels) -/
def fire (σ : State) (i n : Nat) : Option State :=
  match σ.threads[i]? with
  | none => none
  | some t =>
    match (code t.kind)[n]? with
    | none => none
    | some (p, a, q) =>
      if p ≠ t.pc then none
      else match a with
        | .take b => if σ.full b (b.ix t.conn) = true then some ((σ.go i t q).setBox b (b.ix t.conn) false) else none
        | .put b => if σ.full b (b.ix t.conn) = false then some ((σ.go i t q).setBox b (b.ix t.conn) true) else none
        | .send _ => none
        | .recv _ => none
        | .spawn k => some { (σ.go i t q) with threads := (σ.go i t q).threads ++ [⟨k, t.conn, 0⟩] }
        | .open k => some { (σ.go i t q) with threads := (σ.go i t q).threads ++ [⟨k, σ.conns, 0⟩], conns := σ.conns + 1 }
        | .rd _ | .wr _ | .at _ | .skip => some (σ.go i t q)

theorem fire_step {σ σ' : State} {i n : Nat} (h : fire σ i n = some σ') : Step σ σ' := by
  unfold fire at h
  split at h
  · cases h
  · rename_i t ht
    split at h
    · cases h
    · rename_i p a q he
      split at h
      · cases h
      · rename_i hp
        have hp : p = t.pc := Classical.byContradiction hp
        subst hp
        have hm := List.mem_of_getElem? he
        have hcan : σ.Can i t a q := ⟨ht, hm⟩
        split at h
        · split at h
          · cases h; exact .take i t _ q hcan (by assumption)
          · cases h
        · split at h
          · cases h; exact .put i t _ q hcan (by assumption)
          · cases h
        · cases h
        · cases h
        · cases h; exact .spawn i t _ q hcan
        · cases h; exact .open i t _ q hcan
        all_goals (cases h; exact .step i t _ q hcan rfl)

/-- a schedule: which goroutine takes which edge -/
def run (σ : State) : List (Nat × Nat) → Option State
  | [] => some σ
  | (i, n) :: s => (fire σ i n).bind fun σ' => run σ' s

theorem run_reach {s : List (Nat × Nat)} : ∀ {σ σ' : State}, run σ s = some σ' → Reach Step σ σ' := by
  induction s with
  | nil => intro σ σ' h; cases h; exact .refl
  | cons x s ih =>
    intro σ σ' h
    simp only [run, Option.bind_eq_some_iff] at h
    obtain ⟨σ'', h1, h2⟩ := h
    exact .head (fire_step h1) (ih h2)

/-- the race can be seen after a schedule -/
theorem race_of_run (s : List (Nat × Nat)) (l : Loc) (i j : Nat) (t u : Thread) (a b : Act) (pc pc' : Nat) (hij : i ≠ j)
    (hs : ((run init s).map fun σ => (σ.threads[i]?, σ.threads[j]?)) = some (some t, some u))
    (h1 : (t.pc, a, pc) ∈ code t.kind) (h2 : (u.pc, b, pc') ∈ code u.kind) (ha : a.Touches l) (hb : b.Touches l) (hc : Conflict l a b)
    (hcn : l.perConn = true → t.conn = u.conn) : ∃ σ, Reach Step init σ ∧ σ.Race l := by
  rw [Option.map_eq_some_iff] at hs
  obtain ⟨σ, h3, h4⟩ := hs
  simp only [Prod.mk.injEq] at h4
  exact ⟨σ, run_reach h3, i, j, t, u, a, b, pc, pc', hij, ⟨h4.1, h1⟩, ⟨h4.2, h2⟩, ha, hb, hc, hcn⟩

/-- the listener is started and has accepted two connections: goroutines 2 and 3 -/
def twoIn : List (Nat × Nat) := [(0, 0), (1, 0), (1, 1), (1, 2), (1, 2)]

/-- C89 refuted: two connections come in at the same time, and the goroutine of the one is about to write the list of handlers while the other reads it. -/
theorem C89_refuted_list : ∃ σ, Reach Step init σ ∧ σ.Race .phs :=
  race_of_run (twoIn ++ (List.range 12).map (fun n => (2, n)) ++ (List.range 11).map (fun n => (3, n))) .phs 2 3 ⟨.incoming, 1, 12⟩ ⟨.incoming, 2, 11⟩
    (.wr .phs) (.rd .phs) 13 12 (by decide) (by decide +kernel) (by decide +kernel) (by decide +kernel) (.inr (.inl rfl)) (.inl rfl)
    (by constructor <;> simp) (by decide)

/-- C89 refuted: two connections come in at the same time, and both goroutines are about to write the head of the bitfield message into our bitfield, and then one of
them while the other sends it. -/
theorem C89_refuted_head : ∃ σ, Reach Step init σ ∧ σ.Race .head :=
  race_of_run (twoIn ++ (List.range 5).map (fun n => (2, n)) ++ (List.range 4).map (fun n => (3, n))) .head 2 3 ⟨.incoming, 1, 5⟩ ⟨.incoming, 2, 4⟩
    (.rd .head) (.wr .head) 6 5 (by decide) (by decide +kernel) (by decide +kernel) (by decide +kernel) (.inl rfl) (.inr (.inl rfl))
    (by constructor <;> simp) (by decide)

/-- the rate limiter is started (goroutine 2) and a connection is made (3) with its goroutines ping (4), recv (5), read loop (6); a request is received and answered -/
def answering : List (Nat × Nat) :=
  [(0, 0), (0, 1), (0, 2), (0, 3), (0, 4)] ++ (List.range 8).map (fun n => (3, n)) ++
  [(5, 0), (5, 1), (5, 2), (5, 3), (5, 4)] ++ [(6, 0), (6, 2), (6, 4)] ++
  [(5, 5), (5, 6), (5, 7), (5, 8), (5, 10), (5, 11), (5, 12), (5, 14), (5, 15), (5, 16), (5, 19), (5, 20)]

/-- C89 refuted: a block is sent and added (by an atomic operation) to the count of written bytes while the rate limiter, which is not running yet, sets the count to 0
(by an assignment). -/
theorem C89_refuted_count : ∃ σ, Reach Step init σ ∧ σ.Race .wUsed :=
  race_of_run (answering ++ [(2, 0)]) .wUsed 2 5 ⟨.limiter, 0, 1⟩ ⟨.recv, 1, 17⟩
    (.wr .wUsed) (.at .wUsed) 2 18 (by decide) (by decide +kernel) (by decide +kernel) (by decide +kernel) (.inr (.inl rfl)) (.inr (.inr rfl))
    (by constructor <;> simp) (by decide)

/-- C89 refuted: while the rate limiter is running, it resets the count (by an atomic operation) when Write reads it (by an ordinary one, in a loop without any
synchronisation). -/
theorem C89_refuted_wait : ∃ σ, Reach Step init σ ∧ ∃ i j t u pc pc', i ≠ j ∧ t.kind = .limiter ∧ u.kind = .recv ∧ σ.Can i t (.at .wUsed) pc ∧ σ.Can j u (.rd .wUsed) pc' := by
  have h : ((run init (answering ++ [(2, 0), (2, 1), (2, 2)] ++ [(5, 23)])).map fun σ => (σ.threads[2]?, σ.threads[5]?)) =
      some (some ⟨.limiter, 0, 3⟩, some ⟨.recv, 1, 19⟩) := by decide +kernel
  rw [Option.map_eq_some_iff] at h
  obtain ⟨σ, h3, h4⟩ := h
  simp only [Prod.mk.injEq] at h4
  exact ⟨σ, run_reach h3, 2, 5, _, _, 4, 20, by decide, rfl, rfl, ⟨h4.1, by decide +kernel⟩, ⟨h4.2, by decide +kernel⟩⟩

/-- C89, exactly: these three are the locations with a data race. -/
theorem C89_exact_partial (l : Loc) : (∃ σ, Reach Step init σ ∧ σ.Race l) ↔ l = .phs ∨ l = .head ∨ l = .wUsed := by
  constructor
  · rintro ⟨σ, hr, h⟩
    refine Classical.byContradiction fun hn => ?_
    simp only [not_or] at hn
    exact C89_race_free_partial σ hr l hn.1 hn.2.1 hn.2.2 h
  · rintro (rfl | rfl | rfl)
    · exact C89_refuted_list
    · exact C89_refuted_head
    · exact C89_refuted_count

/-- two connections are served: both have received a bitfield, the recvLoop of the first is about to write to the tracker, that of the second waits for the mutex -/
def registering : List (Nat × Nat) :=
  [(0, 0), (0, 1), (0, 2), (0, 3), (0, 4), (0, 4)] ++ (List.range 8).map (fun n => (3, n)) ++ (List.range 8).map (fun n => (4, n)) ++
  [(6, 0), (6, 1), (6, 2), (6, 3), (6, 4)] ++ [(8, 0), (8, 1), (8, 2), (8, 3), (8, 4)] ++ [(9, 0), (9, 2), (9, 4)] ++ [(10, 0), (10, 2), (10, 4)] ++
  [(6, 5), (6, 6), (6, 7), (6, 8)] ++ [(8, 5), (8, 6), (8, 7), (8, 8)] ++ [(6, 32), (6, 33), (6, 35), (6, 36)] ++ [(8, 32), (8, 33), (8, 35), (8, 36)] ++
  [(6, 37), (6, 38), (6, 40)]

example : ∃ σ, Reach Step init σ ∧ σ.threads[6]? = some ⟨.recv, 1, 31⟩ ∧ σ.threads[8]? = some ⟨.recv, 2, 28⟩ ∧ σ.full .mutex 0 = false ∧
    ¬ σ.Race .tracker ∧ ¬ σ.Race .readBuf := by
  have h : ((run init registering).map fun σ => (σ.threads[6]?, σ.threads[8]?, σ.full .mutex 0)) =
      some (some ⟨.recv, 1, 31⟩, some ⟨.recv, 2, 28⟩, false) := by decide +kernel
  rw [Option.map_eq_some_iff] at h
  obtain ⟨σ, h3, h4⟩ := h
  simp only [Prod.mk.injEq] at h4
  exact ⟨σ, run_reach h3, h4.1, h4.2.1, h4.2.2, C89_race_free_partial σ (run_reach h3) _ (by decide) (by decide) (by decide),
    C89_race_free_partial σ (run_reach h3) _ (by decide) (by decide) (by decide)⟩

end Verif.Races
