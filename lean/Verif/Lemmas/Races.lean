import Verif.Model.Races
import Verif.Lemmas.Lts
/-
Permissions for the accesses of Model/Races.lean, and the proof that they are never held by two at a time.

A permission to write excludes all others for the same memory, permissions to read do not exclude each other.  Permissions are held by goroutines, as a
function of where they are (`perm`), and by full boxes (`boxPerm`): a free mutex, a channel that contains something.  `ok` checks on each edge of the graph
that a step only passes on what is there; the check is finite, the theorem `sep` is about any number of goroutines and connections.
-/
set_option autoImplicit false

namespace Verif.Races
open Verif.Lts

/-- permissions: `hW`, `hR` for `handler`, `lW`, `lR` for `readLoop`, `pb` for `pieceBuf`, `bs` for `peerBits`, `rb` for `readBuf`, `mx` for `tracker`, `wl` for being
inside of the lock of Write, `lim` for `rUsed` -/
inductive Perm where
  | hW | hR | lW | lR | pb | bs | rb | mx | wl | lim
  deriving DecidableEq, Repr

def Perm.all : List Perm := [.hW, .hR, .lW, .lR, .pb, .bs, .rb, .mx, .wl, .lim]

theorem Perm.mem_all (p : Perm) : p ∈ Perm.all := by cases p <;> decide

def Perm.perConn : Perm → Bool
  | .mx | .wl | .lim => false
  | _ => true

/-- the two cannot be held by two different holders -/
def excl : Perm → Perm → Bool
  | .hR, .hR => false
  | .lR, .lR => false
  | .hR, .hW => true
  | .hW, .hR => true
  | .lR, .lW => true
  | .lW, .lR => true
  | p, q => p == q

/-- `p` excludes nothing that `q` does not exclude -/
def below (p q : Perm) : Bool := Perm.all.all fun u => !(excl p u) || excl q u

theorem below_excl {p q u : Perm} (h : below p q = true) (h' : excl p u = true) : excl q u = true := by
  have := List.all_eq_true.1 h u u.mem_all
  simpa [h'] using this

theorem excl_symm (p q : Perm) : excl p q = excl q p := by cases p <;> cases q <;> rfl

theorem excl_perConn {p q : Perm} (h : excl p q = true) : p.perConn = q.perConn := by
  revert h; cases p <;> cases q <;> decide

/-- the permissions for a new connection -/
def fresh : List Perm := [.hW, .pb, .bs, .lW, .rb]

/-- what a goroutine holds -/
def perm : Kind → Nat → List Perm
  | .main, n => if n ≤ 2 then [.lim] else []
  | .listener, _ => []
  | .limiter, _ => [.lim]
  | .incoming, n => if n ≤ 14 then fresh else if n = 15 then [.hR, .pb, .bs, .lW, .rb] else [.hR]
  | .bootstrap, n => if n ≤ 6 then fresh else if n = 7 then [.hR, .pb, .bs, .lW, .rb] else [.hR]
  | .ping, _ => [.hR]
  | .recv, n =>
    if n ≤ 4 then [.hR, .pb, .bs, .lW, .rb]
    else [.hR, .pb, .bs, .lR] ++ (if 7 ≤ n ∧ n ≤ 41 then [.rb] else []) ++ (if 29 ≤ n ∧ n ≤ 31 then [.mx] else []) ++
      (if 19 ≤ n ∧ n ≤ 22 then [.wl] else [])
  | .request, n => [.hR] ++ (if 6 ≤ n ∧ n ≤ 9 then [.mx] else []) ++ (if 14 ≤ n ∧ n ≤ 17 then [.wl] else [])
  | .reader, n => [.lR] ++ (if n ≤ 2 then [.rb] else [])

/-- what a full box holds -/
def boxPerm : Box → List Perm
  | .wlock => [.wl]
  | .mutex => [.mx]
  | .chBuf => [.rb]
  | .chReady => [.rb]

/-- each of `ps` comes from one of `qs` -/
def covered (ps qs : List Perm) : Bool := ps.all fun p => qs.any fun q => below p q

/-- none of `ps` excludes one of `qs` -/
def apart (ps qs : List Perm) : Bool := ps.all fun p => qs.all fun q => !(excl p q)

/-- a step only passes on what is there -/
def okEdge (k : Kind) : Edge → Bool
  | (n, .take b, m) => covered (perm k m) (perm k n ++ boxPerm b)
  | (n, .put b, m) => covered (perm k m ++ boxPerm b) (perm k n) && apart (perm k m) (boxPerm b)
  | (n, .spawn k', m) => covered (perm k m ++ perm k' 0) (perm k n) && apart (perm k m) (perm k' 0)
  | (n, .open k', m) => covered (perm k m) (perm k n) && (perm k' 0).all (·.perConn)
  | (n, _, m) => covered (perm k m) (perm k n)

theorem ok (k : Kind) {e : Edge} (h : e ∈ code k) : okEdge k e = true := by
  have : (code k).all (okEdge k) = true := by cases k <;> decide +kernel
  exact List.all_eq_true.1 this e h

/-- goroutines and full boxes -/
inductive Holder where
  | thread (i : Nat)
  | box (b : Box) (n : Nat)
  deriving DecidableEq

/-- the permissions `ps` for connection `c` -/
def inst (ps : List Perm) (c : Nat) : List (Perm × Nat) := ps.map fun p => (p, if p.perConn then c else 0)

/-- what is held -/
def held (σ : State) : Holder → List (Perm × Nat)
  | .thread i => match σ.threads[i]? with
    | some t => inst (perm t.kind t.pc) t.conn
    | none => []
  | .box b n => if σ.full b n = true then inst (boxPerm b) n else []

/-- two holders that cannot be -/
def Clash (x y : Perm × Nat) : Prop := excl x.1 y.1 = true ∧ x.2 = y.2

/-- no clash -/
def Sep (h : Holder → List (Perm × Nat)) : Prop := ∀ a b, a ≠ b → ∀ x ∈ h a, ∀ y ∈ h b, ¬ Clash x y

theorem Clash.symm {x y : Perm × Nat} (h : Clash x y) : Clash y x := ⟨by rw [excl_symm]; exact h.1, h.2.symm⟩

/-- `x` comes from `y` -/
def From (x y : Perm × Nat) : Prop := below x.1 y.1 = true ∧ x.2 = y.2

theorem Clash.from {x y z : Perm × Nat} (h : Clash x z) (hf : From x y) : Clash y z := ⟨below_excl hf.1 h.1, hf.2 ▸ h.2⟩

/-- two holders exchange what they have -/
theorem Sep.move {h h' : Holder → List (Perm × Nat)} (hs : Sep h) (a b : Holder)
    (ho : ∀ c, c ≠ a → c ≠ b → h' c = h c)
    (ha : ∀ x ∈ h' a, ∃ y, (y ∈ h a ∨ y ∈ h b) ∧ From x y)
    (hb : ∀ x ∈ h' b, ∃ y, (y ∈ h a ∨ y ∈ h b) ∧ From x y)
    (hab : a ≠ b → ∀ x ∈ h' a, ∀ y ∈ h' b, ¬ Clash x y) : Sep h' := by
  have key : ∀ c, c ≠ a → c ≠ b → ∀ x y, (y ∈ h a ∨ y ∈ h b) → From x y → ∀ z ∈ h' c, ¬ Clash x z := by
    intro c ca cb x y hy hf z hz hc
    rw [ho c ca cb] at hz
    rcases hy with hy | hy
    · exact hs a c (Ne.symm ca) y hy z hz (hc.from hf)
    · exact hs b c (Ne.symm cb) y hy z hz (hc.from hf)
  intro c d hcd x hx y hy hc
  by_cases ca : c = a
  · subst ca
    by_cases db : d = b
    · subst db; exact hab hcd x hx y hy hc
    · obtain ⟨z, hz, hf⟩ := ha x hx
      exact key d (Ne.symm hcd) db x z hz hf y hy hc
  · by_cases cb : c = b
    · subst cb
      by_cases da : d = a
      · subst da; exact hab (Ne.symm hcd) y hy x hx hc.symm
      · obtain ⟨z, hz, hf⟩ := hb x hx
        exact key d da (Ne.symm hcd) x z hz hf y hy hc
    · by_cases da : d = a
      · subst da
        obtain ⟨z, hz, hf⟩ := ha y hy
        exact key c ca cb y z hz hf x hx hc.symm
      · by_cases db : d = b
        · subst db
          obtain ⟨z, hz, hf⟩ := hb y hy
          exact key c ca cb y z hz hf x hx hc.symm
        · rw [ho c ca cb] at hx; rw [ho d da db] at hy
          exact hs c d hcd x hx y hy hc

theorem mem_inst {ps : List Perm} {c : Nat} {x : Perm × Nat} : x ∈ inst ps c ↔ x.1 ∈ ps ∧ x.2 = (if x.1.perConn then c else 0) := by
  obtain ⟨p, n⟩ := x
  simp only [inst, List.mem_map]
  constructor
  · rintro ⟨q, hq, he⟩
    cases he
    exact ⟨hq, rfl⟩
  · rintro ⟨h1, h2⟩
    exact ⟨p, h1, by rw [← h2]⟩

theorem below_perConn {p q : Perm} (h : below p q = true) : p.perConn = q.perConn := by
  revert h; cases p <;> cases q <;> decide

theorem covered_inst {ps qs : List Perm} (h : covered ps qs = true) (c : Nat) {x : Perm × Nat} (hx : x ∈ inst ps c) : ∃ y ∈ inst qs c, From x y := by
  rw [mem_inst] at hx
  have h1 := List.all_eq_true.1 h x.1 hx.1
  obtain ⟨q, hq, hb⟩ := List.any_eq_true.1 h1
  refine ⟨(q, x.2), mem_inst.2 ⟨hq, ?_⟩, hb, rfl⟩
  simp only [hx.2, below_perConn hb]

theorem apart_inst {ps qs : List Perm} (h : apart ps qs = true) (c d : Nat) {x y : Perm × Nat} (hx : x ∈ inst ps c) (hy : y ∈ inst qs d) : ¬ Clash x y := by
  intro hc
  have h1 := List.all_eq_true.1 (List.all_eq_true.1 h x.1 (mem_inst.1 hx).1) y.1 (mem_inst.1 hy).1
  simp [hc.1] at h1

theorem inst_append (ps qs : List Perm) (c : Nat) : inst (ps ++ qs) c = inst ps c ++ inst qs c := by simp [inst]

/-- what is known of all states -/
structure Inv (σ : State) : Prop where
  sep : Sep (held σ)
  conn : ∀ (i : Nat) t, σ.threads[i]? = some t → t.conn < σ.conns
  box : ∀ b n, b.perConn = true → σ.full b n = true → n < σ.conns

theorem held_go {σ : State} {i : Nat} {t : Thread} {a : Act} {pc : Nat} (h : σ.Can i t a pc) :
    held (σ.go i t pc) (.thread i) = inst (perm t.kind pc) t.conn := by
  obtain ⟨hlt, _⟩ := List.getElem?_eq_some_iff.1 h.1
  simp [held, State.go, hlt]

theorem held_go_ne {σ : State} {i : Nat} {t : Thread} {pc : Nat} {c : Holder} (h : c ≠ .thread i) : held (σ.go i t pc) c = held σ c := by
  cases c with
  | thread j =>
    have : i ≠ j := fun e => h (by rw [e])
    simp [held, State.go, this]
  | box b n => rfl

theorem held_can {σ : State} {i : Nat} {t : Thread} {a : Act} {pc : Nat} (h : σ.Can i t a pc) : held σ (.thread i) = inst (perm t.kind t.pc) t.conn := by
  simp [held, h.1]

/-- a goroutine goes on by itself -/
theorem Inv.go {σ : State} (hi : Inv σ) {i : Nat} {t : Thread} {a : Act} {pc : Nat} (h : σ.Can i t a pc) (hc : covered (perm t.kind pc) (perm t.kind t.pc) = true) :
    Inv (σ.go i t pc) := by
  refine ⟨?_, ?_, hi.box⟩
  · refine hi.sep.move (.thread i) (.thread i) (fun c h1 _ => held_go_ne h1) ?_ ?_ (fun h => absurd rfl h)
    all_goals
      intro x hx
      rw [held_go h] at hx
      obtain ⟨y, hy, hf⟩ := covered_inst hc _ hx
      exact ⟨y, .inl (by rw [held_can h]; exact hy), hf⟩
  · intro j u hu
    simp only [State.go] at hu ⊢
    by_cases hij : i = j
    · subst hij
      obtain ⟨hlt, _⟩ := List.getElem?_eq_some_iff.1 h.1
      rw [List.getElem?_set_self hlt] at hu
      cases hu
      exact hi.conn i t h.1
    · rw [List.getElem?_set_ne hij] at hu
      exact hi.conn j u hu

theorem held_setBox {σ : State} {b : Box} {n : Nat} {v : Bool} {c : Holder} (h : c ≠ .box b n) : held (σ.setBox b n v) c = held σ c := by
  cases c with
  | thread j => rfl
  | box b' n' =>
    have : ¬ (b' = b ∧ n' = n) := fun e => h (by rw [e.1, e.2])
    simp [held, State.setBox, this]

theorem held_setBox_self {σ : State} {b : Box} {n : Nat} {v : Bool} : held (σ.setBox b n v) (.box b n) = if v = true then inst (boxPerm b) n else [] := by
  simp [held, State.setBox]

theorem inst_ix (b : Box) (c : Nat) : inst (boxPerm b) (b.ix c) = inst (boxPerm b) c := by cases b <;> rfl

theorem Inv.step {σ σ' : State} (hi : Inv σ) (hs : Step σ σ') : Inv σ' := by
  cases hs with
  | step i t a pc h hl =>
    have hc := ok t.kind h.2
    refine hi.go h ?_
    cases a <;> simp_all [okEdge, Act.local]
  | take i t b pc h hf =>
    have hc := ok t.kind h.2
    simp only [okEdge] at hc
    refine ⟨?_, ?_, ?_⟩
    · refine hi.sep.move (.thread i) (.box b (b.ix t.conn)) ?_ ?_ ?_ ?_
      · intro c h1 h2
        rw [held_setBox h2, held_go_ne h1]
      · intro x hx
        rw [held_setBox (by simp), held_go h] at hx
        obtain ⟨y, hy, hf'⟩ := covered_inst hc _ hx
        refine ⟨y, ?_, hf'⟩
        rw [inst_append, List.mem_append] at hy
        rw [held_can h]
        rcases hy with hy | hy
        · exact .inl hy
        · exact .inr (by simp only [held, hf, if_true]; rw [inst_ix]; exact hy)
      · intro x hx
        rw [held_setBox_self] at hx
        simp at hx
      · intro _ x _ y hy
        rw [held_setBox_self] at hy
        simp at hy
    · intro j u hu
      simp only [State.setBox, State.go] at hu ⊢
      by_cases hij : i = j
      · subst hij
        obtain ⟨hlt, _⟩ := List.getElem?_eq_some_iff.1 h.1
        rw [List.getElem?_set_self hlt] at hu
        cases hu
        exact hi.conn i t h.1
      · rw [List.getElem?_set_ne hij] at hu
        exact hi.conn j u hu
    · intro b' n' hb hfull
      simp only [State.setBox, State.go] at hfull ⊢
      split at hfull
      · simp at hfull
      · exact hi.box b' n' hb hfull
  | put i t b pc h hf =>
    have hc := ok t.kind h.2
    simp only [okEdge, Bool.and_eq_true] at hc
    refine ⟨?_, ?_, ?_⟩
    · refine hi.sep.move (.thread i) (.box b (b.ix t.conn)) ?_ ?_ ?_ ?_
      · intro c h1 h2
        rw [held_setBox h2, held_go_ne h1]
      · intro x hx
        rw [held_setBox (by simp), held_go h] at hx
        obtain ⟨y, hy, hf'⟩ := covered_inst hc.1 t.conn (x := x) (by rw [inst_append]; exact List.mem_append_left _ hx)
        exact ⟨y, .inl (by rw [held_can h]; exact hy), hf'⟩
      · intro x hx
        rw [held_setBox_self] at hx
        simp only [if_true, inst_ix] at hx
        obtain ⟨y, hy, hf'⟩ := covered_inst hc.1 t.conn (x := x) (by rw [inst_append]; exact List.mem_append_right _ hx)
        exact ⟨y, .inl (by rw [held_can h]; exact hy), hf'⟩
      · intro _ x hx y hy
        rw [held_setBox (by simp), held_go h] at hx
        rw [held_setBox_self] at hy
        simp only [if_true, inst_ix] at hy
        exact apart_inst hc.2 _ _ hx hy
    · intro j u hu
      simp only [State.setBox, State.go] at hu ⊢
      by_cases hij : i = j
      · subst hij
        obtain ⟨hlt, _⟩ := List.getElem?_eq_some_iff.1 h.1
        rw [List.getElem?_set_self hlt] at hu
        cases hu
        exact hi.conn i t h.1
      · rw [List.getElem?_set_ne hij] at hu
        exact hi.conn j u hu
    · intro b' n' hb hfull
      simp only [State.setBox, State.go] at hfull ⊢
      split at hfull
      · rename_i he
        rw [he.2, he.1.symm]
        simp only [Box.ix, hb, if_true]
        exact hi.conn i t h.1
      · exact hi.box b' n' hb hfull
  | meet i j hij t u c pc pc' h h' hcn =>
    have hc := ok t.kind h.2
    have hc' := ok u.kind h'.2
    simp only [okEdge] at hc hc'
    refine (hi.go h hc).go (a := .recv c) ⟨?_, h'.2⟩ hc'
    simp only [State.go]
    rw [List.getElem?_set_ne hij]
    exact h'.1
  | spawn i t k pc h =>
    have hc := ok t.kind h.2
    simp only [okEdge, Bool.and_eq_true] at hc
    obtain ⟨hlt, _⟩ := List.getElem?_eq_some_iff.1 h.1
    have hnew : held { (σ.go i t pc) with threads := (σ.go i t pc).threads ++ [⟨k, t.conn, 0⟩] } (.thread σ.threads.length) = inst (perm k 0) t.conn := by
      simp [held, State.go]
    have hold : held { (σ.go i t pc) with threads := (σ.go i t pc).threads ++ [⟨k, t.conn, 0⟩] } (.thread i) = inst (perm t.kind pc) t.conn := by
      simp [held, State.go, List.getElem?_append_left, hlt]
    refine ⟨?_, ?_, hi.box⟩
    · refine hi.sep.move (.thread i) (.thread σ.threads.length) ?_ ?_ ?_ ?_
      · intro c h1 h2
        cases c with
        | box b n => rfl
        | thread j =>
          have h1' : i ≠ j := fun e => h1 (by rw [e])
          have h2' : j ≠ σ.threads.length := fun e => h2 (by rw [e])
          by_cases hj : j < σ.threads.length
          · simp [held, State.go, List.getElem?_append_left, hj, h1']
          · have : σ.threads.length + 1 ≤ j := by omega
            rw [held, held]
            simp only [State.go]
            rw [List.getElem?_eq_none (by simpa using this), List.getElem?_eq_none (by omega)]
      · intro x hx
        rw [hold] at hx
        obtain ⟨y, hy, hf'⟩ := covered_inst hc.1 t.conn (x := x) (by rw [inst_append]; exact List.mem_append_left _ hx)
        exact ⟨y, .inl (by rw [held_can h]; exact hy), hf'⟩
      · intro x hx
        rw [hnew] at hx
        obtain ⟨y, hy, hf'⟩ := covered_inst hc.1 t.conn (x := x) (by rw [inst_append]; exact List.mem_append_right _ hx)
        exact ⟨y, .inl (by rw [held_can h]; exact hy), hf'⟩
      · intro _ x hx y hy
        rw [hold] at hx
        rw [hnew] at hy
        exact apart_inst hc.2 _ _ hx hy
    · intro j u hu
      simp only [State.go] at hu ⊢
      rw [List.getElem?_append] at hu
      split at hu
      · by_cases hij : i = j
        · subst hij
          rw [List.getElem?_set_self hlt] at hu
          cases hu
          exact hi.conn i t h.1
        · rw [List.getElem?_set_ne hij] at hu
          exact hi.conn j u hu
      · rw [List.getElem?_singleton] at hu
        split at hu
        · cases hu; exact hi.conn i t h.1
        · simp at hu
  | «open» i t k pc h =>
    have hc := ok t.kind h.2
    simp only [okEdge, Bool.and_eq_true] at hc
    obtain ⟨hlt, _⟩ := List.getElem?_eq_some_iff.1 h.1
    have hgo := hi.go h hc.1
    have hfr : ∀ c, ∀ x ∈ held (σ.go i t pc) c, x.1.perConn = true → x.2 < σ.conns := by
      intro c x hx hp
      cases c with
      | thread j =>
        simp only [held] at hx
        split at hx
        · rename_i u hu
          rw [mem_inst] at hx
          rw [hx.2, if_pos hp]
          exact hgo.conn j u hu
        · simp at hx
      | box b n =>
        simp only [held] at hx
        split at hx
        · rename_i hfull
          rw [mem_inst] at hx
          rw [hx.2, if_pos hp]
          refine hgo.box b n ?_ hfull
          have h1 := hx.1
          cases b
          all_goals
            simp only [boxPerm, List.mem_singleton] at h1
            rw [h1] at hp
            first | rfl | exact absurd hp (by decide)
        · simp at hx
    refine ⟨?_, ?_, ?_⟩
    · intro c d hcd x hx y hy hcl
      have hcase : ∀ c, (c = .thread σ.threads.length ∧
            held { (σ.go i t pc) with threads := (σ.go i t pc).threads ++ [⟨k, σ.conns, 0⟩], conns := σ.conns + 1 } c = inst (perm k 0) σ.conns) ∨
          held { (σ.go i t pc) with threads := (σ.go i t pc).threads ++ [⟨k, σ.conns, 0⟩], conns := σ.conns + 1 } c = held (σ.go i t pc) c := by
        intro c
        cases c with
        | box b n => exact .inr rfl
        | thread j =>
          by_cases hj : j = σ.threads.length
          · subst hj
            exact .inl ⟨rfl, by simp [held, State.go]⟩
          · right
            by_cases hj' : j < σ.threads.length
            · simp [held, State.go, List.getElem?_append_left, hj']
            · rw [held, held]
              simp only [State.go]
              rw [List.getElem?_eq_none (by simp; omega), List.getElem?_eq_none (by simp; omega)]
      have hnew : ∀ x ∈ inst (perm k 0) σ.conns, x.1.perConn = true ∧ x.2 = σ.conns := by
        intro x hx
        rw [mem_inst] at hx
        have := List.all_eq_true.1 hc.2 x.1 hx.1
        exact ⟨this, by rw [hx.2, if_pos this]⟩
      rcases hcase c with ⟨c1, c2⟩ | c2 <;> rcases hcase d with ⟨d1, d2⟩ | d2
      · exact hcd (c1.trans d1.symm)
      · rw [c2] at hx; rw [d2] at hy
        have h1 := hnew x hx
        have h2 := hfr d y hy (by rw [← excl_perConn hcl.1]; exact h1.1)
        have := hcl.2
        omega
      · rw [c2] at hx; rw [d2] at hy
        have h1 := hnew y hy
        have h2 := hfr c x hx (by rw [excl_perConn hcl.1]; exact h1.1)
        have := hcl.2
        omega
      · rw [c2] at hx; rw [d2] at hy
        exact hgo.sep c d hcd x hx y hy hcl
    · intro j u hu
      simp only at hu ⊢
      rw [List.getElem?_append] at hu
      split at hu
      · have := hgo.conn j u hu
        simp only [State.go] at this
        omega
      · rw [List.getElem?_singleton] at hu
        split at hu
        · cases hu; simp
        · simp at hu
    · intro b n hb hfull
      have := hi.box b n hb hfull
      simp only
      omega

theorem inv_init : Inv init := by
  refine ⟨?_, ?_, ?_⟩
  · intro c d hcd x hx y hy hcl
    have key : ∀ c, ∀ x ∈ held init c, (c = .thread 0 ∧ x.1 = .lim) ∨ (c = .box .wlock 0 ∧ x.1 = .wl) ∨ (c = .box .mutex 0 ∧ x.1 = .mx) := by
      intro c x hx
      cases c with
      | thread j =>
        cases j with
        | zero =>
          left
          simp only [held, init] at hx
          exact ⟨rfl, by simpa [perm] using (mem_inst.1 hx).1⟩
        | succ j => simp [held, init] at hx
      | box b n =>
        right
        by_cases hfull : init.full b n = true
        · simp only [held, hfull, if_true] at hx
          simp only [init, decide_eq_true_eq] at hfull
          obtain ⟨rfl, rfl | rfl⟩ := hfull
          · exact .inl ⟨rfl, by simpa [boxPerm] using (mem_inst.1 hx).1⟩
          · exact .inr ⟨rfl, by simpa [boxPerm] using (mem_inst.1 hx).1⟩
        · simp [held, hfull] at hx
    have he := hcl.1
    rcases key c x hx with ⟨c1, c2⟩ | ⟨c1, c2⟩ | ⟨c1, c2⟩ <;> rcases key d y hy with ⟨d1, d2⟩ | ⟨d1, d2⟩ | ⟨d1, d2⟩ <;>
      first
      | exact hcd (c1.trans d1.symm)
      | (rw [c2, d2] at he; exact absurd he (by decide))
  · intro i t ht
    cases i with
    | zero => cases ht; decide
    | succ i => simp [init] at ht
  · intro b n hb hfull
    cases b <;> simp_all [Box.perConn, init]

theorem reach_inv {σ : State} (h : Reach Step init σ) : Inv σ := Reach.keep (Q := Inv) (fun _ _ hi hs => hi.step hs) h inv_init

end Verif.Races
