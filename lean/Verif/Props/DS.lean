import Verif.Lemmas.DS
import Verif.Spec.Seq
/-
Properties C50 and C51: the linked list and the keyed set (/repo/src/utils/ds).
-/
set_option autoImplicit false

namespace Verif.DS
open Verif.SeqSpec

/-! ### C50 -/

/-- an operation of the model -/
def listOp {α : Type} (s : Heap α × LinkedList) : LOp α → Res (Heap α × LinkedList)
  | .addData d => do
    let (h, ll, _) ← AddDataFront s.1 s.2 d
    .ok (h, ll)
  | .addNode n => AddNodeFront s.1 s.2 n
  | .remove n => Remove s.1 s.2 n
  | .clear => .ok (s.1, Clear s.2)

/-- a history of operations of the model -/
def listRun {α : Type} : Heap α × LinkedList → List (LOp α) → Res (Heap α × LinkedList)
  | s, [] => .ok s
  | s, o :: os => do
    let s' ← listOp s o
    listRun s' os

theorem seg_forward {α : Type} {h : Heap α} {p : Option Nat} {xs : List Nat} (hs : Seg h p xs none) : Forward h xs.head? xs := by
  induction xs generalizing p with
  | nil => exact .done
  | cons x xs ih =>
    obtain ⟨⟨d, hd⟩, hs⟩ := hs
    rw [Option.or_none] at hd
    exact .step x _ xs hd (ih hs)

theorem seg_backward {α : Type} {h : Heap α} {xs : List Nat} (n : Nat) (hn : xs.length = n) (q : Option Nat) (hs : Seg h none xs q) :
    Backward h xs.getLast? xs.reverse := by
  induction n generalizing xs q with
  | zero =>
    have : xs = [] := List.eq_nil_of_length_eq_zero hn
    subst this
    exact .done
  | succ n ih =>
    rcases List.eq_nil_or_concat xs with rfl | ⟨ys, x, rfl⟩
    · cases hn
    · rw [List.concat_eq_append] at *
      rw [seg_append] at hs
      obtain ⟨s1, ⟨d, hd⟩, -⟩ := hs
      rw [List.getLast?_append, List.reverse_append]
      simp only [List.getLast?_singleton, Option.some_or, List.reverse_cons, List.reverse_nil, List.nil_append, List.cons_append]
      refine .step x _ _ hd ?_
      simp only [Option.or_none]
      rw [List.length_append] at hn
      exact ih (by simpa using hn) _ s1

theorem filter_erase {l : List Nat} (n : Nat) (h : l.Nodup) : l.filter (· != n) = l.erase n := by
  rw [h.erase_eq_filter]

/-- the relation between a state of the model and the specification -/
structure Agrees {α : Type} (s : Heap α × LinkedList) (sp : LSpec α) : Prop where
  isList : IsList s.1 s.2 sp.seq
  len : s.1.length = sp.made.length
  data : ∀ a : Nat, (s.1[a]?).map Node.data = sp.made[a]?

theorem listOp_agrees {α : Type} (s : Heap α × LinkedList) (sp : LSpec α) (o : LOp α) (h : Agrees s sp) (ha : o.Allowed sp) :
    ∃ s', listOp s o = .ok s' ∧ Agrees s' (o.effect sp) := by
  obtain ⟨hp, ll⟩ := s
  obtain ⟨h1, h2, h3⟩ := h
  simp only at h1 h2 h3
  cases o with
  | addData d =>
    have hno : hp.length ∉ sp.seq := fun hm => Nat.lt_irrefl _ (seg_mem h1.seg _ hm)
    obtain ⟨h', ll', e, il, sd, -⟩ := addNodeFront_spec (hp ++ [⟨d, none, none⟩]) ll sp.seq (isList_alloc h1 _) hp.length
      (by simp) hno
    refine ⟨(h', ll'), ?_, ⟨?_, ?_, ?_⟩⟩
    · unfold listOp AddDataFront
      simp only [e, Res.ok_bind]
    · show IsList h' ll' (sp.made.length :: sp.seq)
      rw [← h2]; exact il
    · show h'.length = (sp.made ++ [d]).length
      rw [sd.1, List.length_append, List.length_append, h2]; rfl
    · intro a
      show (h'[a]?).map Node.data = (sp.made ++ [d])[a]?
      rw [sd.2 a]
      rcases Nat.lt_trichotomy a hp.length with hl | he | hg
      · rw [List.getElem?_append_left hl, List.getElem?_append_left (by omega)]
        exact h3 a
      · rw [he, List.getElem?_append_right (Nat.le_refl _), h2, List.getElem?_append_right (Nat.le_refl _)]
        simp
      · rw [List.getElem?_eq_none (by simp; omega), List.getElem?_eq_none (by simp; omega)]
        rfl
  | addNode n =>
    obtain ⟨hn, hno⟩ := ha
    obtain ⟨h', ll', e, il, sd, -⟩ := addNodeFront_spec hp ll sp.seq h1 n (by rw [h2]; exact hn) hno
    exact ⟨(h', ll'), e, ⟨il, by rw [sd.1, h2]; rfl, fun a => by rw [sd.2 a, h3 a]; rfl⟩⟩
  | remove n =>
    obtain ⟨h', ll', e, il, sd, -⟩ := remove_spec hp ll sp.seq h1 n ha
    refine ⟨(h', ll'), e, ⟨?_, by rw [sd.1, h2]; rfl, fun a => by rw [sd.2 a, h3 a]; rfl⟩⟩
    show IsList h' ll' (sp.seq.filter (· != n))
    rw [filter_erase n h1.nodup]
    exact il
  | clear => exact ⟨(hp, Clear ll), rfl, ⟨isList_nil hp, h2, h3⟩⟩

theorem listRun_agrees {α : Type} (os : List (LOp α)) (s : Heap α × LinkedList) (sp : LSpec α) (h : Agrees s sp) (ha : AllAllowed sp os) :
    ∃ s', listRun s os = .ok s' ∧ Agrees s' (os.foldl LOp.effect sp) := by
  induction os generalizing s sp with
  | nil => exact ⟨s, rfl, h⟩
  | cons o os ih =>
    obtain ⟨s1, e1, h1⟩ := listOp_agrees s sp o h ha.1
    obtain ⟨s2, e2, h2⟩ := ih s1 _ h1 ha.2
    exact ⟨s2, by rw [listRun, e1, Res.ok_bind, e2], h2⟩

/-- **C50**.  After any history in which only detached nodes are added and only members removed: no operation panics, walking
forward visits exactly the expected sequence, walking backward its reverse, the size is its length, and all nodes carry their
data. -/
theorem C50_sequence {α : Type} (os : List (LOp α)) (ha : AllAllowed ⟨[], []⟩ os) :
    ∃ h ll, listRun ([], Make) os = .ok (h, ll) ∧
      Forward h ll.head (os.foldl LOp.effect ⟨[], []⟩).seq ∧
      Backward h (os.foldl LOp.effect ⟨[], []⟩).seq.getLast? (os.foldl LOp.effect ⟨[], []⟩).seq.reverse ∧
      ll.size = (os.foldl LOp.effect ⟨[], []⟩).seq.length ∧
      h.map Node.data = (os.foldl LOp.effect ⟨[], []⟩).made := by
  obtain ⟨⟨h, ll⟩, e, ag⟩ := listRun_agrees os ([], Make) ⟨[], []⟩ ⟨isList_nil [], rfl, fun a => by simp⟩ ha
  refine ⟨h, ll, e, ?_, seg_backward _ rfl none ag.isList.seg, ag.isList.size, ?_⟩
  · have := seg_forward ag.isList.seg
    rw [← ag.isList.head] at this
    exact this
  · apply List.ext_getElem?
    intro a
    rw [List.getElem?_map]
    exact ag.data a

/-- **C50**, the panic: removing anything from an empty list panics. -/
theorem C50_remove_empty {α : Type} (h : Heap α) (ll : LinkedList) (n : Nat) (hs : ll.size = 0) : Remove h ll n = .panic := by
  unfold Remove; rw [if_pos hs]

example : AllAllowed (⟨[], []⟩ : LSpec String) [.addData "a", .addData "b", .addData "c", .remove 1, .addNode 1, .remove 0] ∧
    ([LOp.addData "a", .addData "b", .addData "c", .remove 1, .addNode 1, .remove 0].foldl LOp.effect ⟨[], []⟩).seq = [1, 2] := by
  simp [AllAllowed, LOp.Allowed, LOp.effect]

/-! ### C51 -/

/-- an operation of the model, with its result -/
def setOp {τ : Type} (key : τ → Bytes) (s : Set τ) : SOp τ → Set τ × Bool
  | .add x => s.Add key x
  | .remove x => s.Remove key x

/-- a history of operations (oldest first) -/
def setRun {τ : Type} (key : τ → Bytes) (os : List (SOp τ)) : Set τ := os.foldl (fun s o => (setOp key s o).1) (MakeSet τ)

theorem has_iff {τ : Type} (s : Set τ) (k : Bytes) : (s.lookup k).isSome = true ↔ k ∈ s.map Prod.fst := by
  induction s with
  | nil => simp
  | cons p s ih =>
    obtain ⟨a, x⟩ := p
    rw [List.lookup_cons]
    by_cases h : k = a
    · simp [h]
    · have : (k == a) = false := by simpa using h
      rw [this, ih]; simp [h]

theorem setOp_spec {τ : Type} (key : τ → Bytes) (s : Set τ) (hn : (s.map Prod.fst).Nodup) (hk : ∀ p ∈ s, key p.2 = p.1) (o : SOp τ) :
    ((setOp key s o).1.map Prod.fst).Nodup ∧ (∀ p ∈ (setOp key s o).1, key p.2 = p.1) ∧
    ∀ k, (k ∈ (setOp key s o).1.map Prod.fst ↔
      match o with
      | .add x => key x = k ∨ k ∈ s.map Prod.fst
      | .remove x => key x ≠ k ∧ k ∈ s.map Prod.fst) := by
  cases o with
  | add x =>
    simp only [setOp, Set.Add, Set.Has]
    by_cases h : (s.lookup (key x)).isSome = true
    · simp only [h, if_true]
      rw [has_iff] at h
      refine ⟨hn, hk, fun k => ?_⟩
      constructor
      · exact .inr
      · rintro (rfl | h')
        · exact h
        · exact h'
    · simp only [h, if_false, Bool.false_eq_true]
      rw [has_iff] at h
      refine ⟨?_, ?_, ?_⟩
      · rw [List.map_append, List.nodup_append]
        refine ⟨hn, by simp, ?_⟩
        intro a ha b hb
        simp only [List.map_cons, List.map_nil, List.mem_singleton] at hb
        rintro rfl
        exact h (hb ▸ ha)
      · intro p hp
        rcases List.mem_append.mp hp with hp | hp
        · exact hk p hp
        · cases List.mem_singleton.mp hp; rfl
      · intro k
        rw [List.map_append, List.mem_append]
        simp only [List.map_cons, List.map_nil, List.mem_singleton]
        constructor
        · rintro (h' | rfl)
          · exact .inr h'
          · exact .inl rfl
        · rintro (rfl | h')
          · exact .inr rfl
          · exact .inl h'
  | remove x =>
    simp only [setOp, Set.Remove, Set.Has]
    by_cases h : (s.lookup (key x)).isSome = true
    · simp only [h, if_true]
      refine ⟨?_, ?_, ?_⟩
      · exact hn.sublist (List.filter_sublist.map _)
      · intro p hp
        exact hk p (List.mem_filter.mp hp).1
      · intro k
        simp only [List.mem_map, List.mem_filter, bne_iff_ne, ne_eq]
        constructor
        · rintro ⟨p, ⟨hp, hne⟩, rfl⟩
          exact ⟨fun e => hne e.symm, p, hp, rfl⟩
        · rintro ⟨hne, p, hp, rfl⟩
          exact ⟨p, ⟨hp, fun e => hne e.symm⟩, rfl⟩
    · simp only [h, if_false, Bool.false_eq_true]
      rw [has_iff] at h
      refine ⟨hn, hk, fun k => ?_⟩
      constructor
      · intro hm
        exact ⟨fun e => h (e ▸ hm), hm⟩
      · exact fun h' => h'.2

theorem setRun_spec {τ : Type} (key : τ → Bytes) (os : List (SOp τ)) :
    ((setRun key os).map Prod.fst).Nodup ∧ (∀ p ∈ setRun key os, key p.2 = p.1) ∧
    ∀ k, (k ∈ (setRun key os).map Prod.fst ↔ SOp.member key os.reverse k = true) := by
  have key' : ∀ n (os : List (SOp τ)), os.length = n → ((setRun key os).map Prod.fst).Nodup ∧ (∀ p ∈ setRun key os, key p.2 = p.1) ∧
      ∀ k, (k ∈ (setRun key os).map Prod.fst ↔ SOp.member key os.reverse k = true) := by
    intro n
    induction n with
    | zero =>
      intro os h
      have : os = [] := List.eq_nil_of_length_eq_zero h
      subst this
      exact ⟨List.nodup_nil, fun p hp => (by cases hp), fun k => by simp [setRun, MakeSet, SOp.member]⟩
    | succ n ih =>
      intro os h
      rcases List.eq_nil_or_concat os with rfl | ⟨os', o, rfl⟩
      · cases h
      · rw [List.concat_eq_append] at *
        rw [List.length_append] at h
        obtain ⟨h1, h2, h3⟩ := ih os' (by simpa using h)
        have e : setRun key (os' ++ [o]) = (setOp key (setRun key os') o).1 := by
          unfold setRun; rw [List.foldl_append]; rfl
        rw [e]
        obtain ⟨g1, g2, g3⟩ := setOp_spec key (setRun key os') h1 h2 o
        refine ⟨g1, g2, fun k => ?_⟩
        rw [g3 k, List.reverse_append]
        cases o with
        | add x =>
          show _ ↔ SOp.member key (.add x :: os'.reverse) k = true
          rw [SOp.member, h3 k]
          by_cases hx : key x = k
          · simp [hx]
          · simp [hx]
        | remove x =>
          show _ ↔ SOp.member key (.remove x :: os'.reverse) k = true
          rw [SOp.member, h3 k]
          by_cases hx : key x = k
          · simp [hx]
          · simp [hx]
  exact key' _ os rfl

/-- **C51**, membership and results: after any history, `Has` is membership, `Size` the number of members, and `Add` and `Remove`
report whether they change membership. -/
theorem C51_set {τ : Type} (key : τ → Bytes) (os : List (SOp τ)) (x : τ) :
    (setRun key os).Has key x = SOp.member key os.reverse (key x) ∧
    (∃ ks : List Bytes, ks.Nodup ∧ (∀ k, k ∈ ks ↔ SOp.member key os.reverse k = true) ∧ (setRun key os).Size = ks.length) ∧
    ((setRun key os).Add key x).2 = !SOp.member key os.reverse (key x) ∧
    ((setRun key os).Remove key x).2 = SOp.member key os.reverse (key x) := by
  obtain ⟨h1, h2, h3⟩ := setRun_spec key os
  have hh : (setRun key os).Has key x = SOp.member key os.reverse (key x) := by
    unfold Set.Has
    rw [Bool.eq_iff_iff, has_iff, h3]
  refine ⟨hh, ⟨_, h1, h3, by unfold Set.Size; rw [List.length_map]⟩, ?_, ?_⟩
  · unfold Set.Add
    rw [hh]
    cases SOp.member key os.reverse (key x) <;> rfl
  · unfold Set.Remove
    rw [hh]
    cases SOp.member key os.reverse (key x) <;> rfl

/-- **C51**, `Items`, exactly: as many zero values as there are members, and then one element for each member.
Missing from the property: the zero values should not be there (`C51_refuted_items`). -/
theorem C51_items_partial {τ : Type} (key : τ → Bytes) (zero : τ) (os : List (SOp τ)) :
    ∃ xs : List τ, (setRun key os).Items zero = List.replicate xs.length zero ++ xs ∧ (xs.map key).Nodup ∧
      ∀ k, k ∈ xs.map key ↔ SOp.member key os.reverse k = true := by
  obtain ⟨h1, h2, h3⟩ := setRun_spec key os
  have e : ((setRun key os).map Prod.snd).map key = (setRun key os).map Prod.fst := by
    rw [List.map_map]
    exact List.map_congr_left h2
  exact ⟨(setRun key os).map Prod.snd, by unfold Set.Items; rw [List.length_map], by rw [e]; exact h1, fun k => by rw [e, h3]⟩

/-- **C51** refuted: as soon as there is a member, `Items` starts with a zero value (for this package a nil pointer) and has
twice as many elements as the set. -/
theorem C51_refuted_items {τ : Type} (key : τ → Bytes) (zero : τ) (os : List (SOp τ)) (x : τ) (h : SOp.member key os.reverse (key x) = true) :
    ((setRun key os).Items zero).head? = some zero ∧ (((setRun key os).Items zero).length : Int) = 2 * (setRun key os).Size ∧
      0 < (setRun key os).Size := by
  obtain ⟨h1, h2, h3⟩ := setRun_spec key os
  have hm := (h3 (key x)).mpr h
  have hpos : 0 < (setRun key os).length := by
    have := List.length_pos_of_mem hm
    rwa [List.length_map] at this
  unfold Set.Items Set.Size
  refine ⟨?_, by simp; omega, by omega⟩
  obtain ⟨m, hm⟩ : ∃ m, (setRun key os).length = m + 1 := ⟨_, (Nat.succ_pred_eq_of_pos hpos).symm⟩
  rw [hm, List.replicate_succ]; rfl

example : setRun id [.add (ascii "a"), .add (ascii "b"), .remove (ascii "a"), .add (ascii "b")] = [(ascii "b", ascii "b")] := by decide

end Verif.DS
