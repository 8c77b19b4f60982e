import Verif.Model.DS
/- Helper lemmas about linked lists in a heap. -/
set_option autoImplicit false

namespace Verif.DS

variable {α : Type}

/-- a doubly linked segment between the nodes `p` and `q` -/
def Seg (h : Heap α) : Option Nat → List Nat → Option Nat → Prop
  | _, [], _ => True
  | p, x :: xs, q => (∃ d, h[x]? = some ⟨d, xs.head?.or q, p⟩) ∧ Seg h (some x) xs q

/-- the list `ll` consists of the nodes `xs` -/
structure IsList (h : Heap α) (ll : LinkedList) (xs : List Nat) : Prop where
  nodup : xs.Nodup
  seg : Seg h none xs none
  head : ll.head = xs.head?
  size : ll.size = xs.length

/-- the data of all nodes and the set of allocated addresses are the same -/
def SameData (h h' : Heap α) : Prop := h'.length = h.length ∧ ∀ a : Nat, (h'[a]?).map Node.data = (h[a]?).map Node.data

theorem SameData.refl (h : Heap α) : SameData h h := ⟨rfl, fun _ => rfl⟩
theorem SameData.trans {h1 h2 h3 : Heap α} (a : SameData h1 h2) (b : SameData h2 h3) : SameData h1 h3 :=
  ⟨b.1.trans a.1, fun x => (b.2 x).trans (a.2 x)⟩

theorem seg_append (h : Heap α) (p q : Option Nat) (a b : List Nat) :
    Seg h p (a ++ b) q ↔ Seg h p a (b.head?.or q) ∧ Seg h (a.getLast?.or p) b q := by
  induction a generalizing p with
  | nil => simp [Seg]
  | cons x a ih =>
    rw [List.cons_append, Seg, Seg, ih, and_assoc]
    have e1 : (a ++ b).head?.or q = a.head?.or (b.head?.or q) := by
      rw [List.head?_append, Option.or_assoc]
    have e2 : a.getLast?.or (some x) = (x :: a).getLast?.or p := by
      rw [List.getLast?_cons]
      cases a.getLast? <;> rfl
    rw [e1, e2]

theorem seg_frame {h h' : Heap α} {p q : Option Nat} {xs : List Nat} (hs : Seg h p xs q) (hf : ∀ x ∈ xs, h'[x]? = h[x]?) : Seg h' p xs q := by
  induction xs generalizing p with
  | nil => trivial
  | cons x xs ih =>
    obtain ⟨⟨d, hd⟩, hs⟩ := hs
    exact ⟨⟨d, by rw [hf x (by simp), hd]⟩, ih hs (fun y hy => hf y (by simp [hy]))⟩

theorem seg_mem {h : Heap α} {p q : Option Nat} {xs : List Nat} (hs : Seg h p xs q) : ∀ x ∈ xs, x < h.length := by
  induction xs generalizing p with
  | nil => intro x hx; cases hx
  | cons x xs ih =>
    obtain ⟨⟨d, hd⟩, hs⟩ := hs
    intro y hy
    rcases List.mem_cons.mp hy with rfl | hy
    · exact (List.getElem?_eq_some_iff.mp hd).1
    · exact ih hs y hy

theorem getElem?_set' (h : Heap α) (a b : Nat) (nd : Node α) (ha : a < h.length) : (h.set a nd)[b]? = if b = a then some nd else h[b]? := by
  rw [List.getElem?_set]
  by_cases hab : a = b
  · subst hab; simp [ha]
  · rw [if_neg hab, if_neg (fun e => hab e.symm)]

theorem setNext_spec (h : Heap α) (a : Nat) (v : Option Nat) (ha : a < h.length) :
    ∃ h', setNext h (some a) v = .ok h' ∧ SameData h h' ∧ (∀ b, b ≠ a → h'[b]? = h[b]?) ∧
      ∀ d n p, h[a]? = some ⟨d, n, p⟩ → h'[a]? = some ⟨d, v, p⟩ := by
  unfold setNext
  have hg : h[a]? = some h[a] := List.getElem?_eq_getElem ha
  simp only [hg]
  refine ⟨_, rfl, ⟨List.length_set, ?_⟩, ?_, ?_⟩
  · intro b
    rw [getElem?_set' _ _ _ _ ha]
    split
    · rename_i hb; rw [hb, hg]; rfl
    · rfl
  · intro b hb; rw [getElem?_set' _ _ _ _ ha, if_neg hb]
  · intro d n p he
    rw [getElem?_set' _ _ _ _ ha, if_pos rfl]
    rw [Option.some.inj he]

theorem setPrev_spec (h : Heap α) (a : Nat) (v : Option Nat) (ha : a < h.length) :
    ∃ h', setPrev h (some a) v = .ok h' ∧ SameData h h' ∧ (∀ b, b ≠ a → h'[b]? = h[b]?) ∧
      ∀ d n p, h[a]? = some ⟨d, n, p⟩ → h'[a]? = some ⟨d, n, v⟩ := by
  unfold setPrev
  have hg : h[a]? = some h[a] := List.getElem?_eq_getElem ha
  simp only [hg]
  refine ⟨_, rfl, ⟨List.length_set, ?_⟩, ?_, ?_⟩
  · intro b
    rw [getElem?_set' _ _ _ _ ha]
    split
    · rename_i hb; rw [hb, hg]; rfl
    · rfl
  · intro b hb; rw [getElem?_set' _ _ _ _ ha, if_neg hb]
  · intro d n p he
    rw [getElem?_set' _ _ _ _ ha, if_pos rfl]
    rw [Option.some.inj he]

/-- adding a node that is not in the list -/
theorem addNodeFront_spec (h : Heap α) (ll : LinkedList) (xs : List Nat) (hl : IsList h ll xs) (n : Nat) (hn : n < h.length) (hx : n ∉ xs) :
    ∃ h' ll', AddNodeFront h ll n = .ok (h', ll') ∧ IsList h' ll' (n :: xs) ∧ SameData h h' ∧ ∀ b, b ∉ n :: xs → h'[b]? = h[b]? := by
  have hnd : ∃ d nx pv, h[n]? = some ⟨d, nx, pv⟩ := ⟨_, _, _, List.getElem?_eq_getElem hn⟩
  obtain ⟨d, nx, pv, hd⟩ := hnd
  unfold AddNodeFront
  cases xs with
  | nil =>
    have hsz : ll.size = 0 := hl.size
    rw [if_pos hsz]
    obtain ⟨h1, e1, s1, f1, g1⟩ := setPrev_spec h n none hn
    obtain ⟨h2, e2, s2, f2, g2⟩ := setNext_spec h1 n none (by rw [s1.1]; exact hn)
    rw [e1, Res.ok_bind, e2, Res.ok_bind]
    refine ⟨h2, _, rfl, ⟨by simp, ⟨⟨d, ?_⟩, trivial⟩, rfl, by rw [hsz]; rfl⟩, s1.trans s2, ?_⟩
    · exact g2 _ _ _ (g1 _ _ _ hd)
    · intro b hb
      have hb : b ≠ n := by simpa using hb
      rw [f2 b hb, f1 b hb]
  | cons y ys =>
    have hsz : ll.size ≠ 0 := by rw [hl.size, List.length_cons]; omega
    rw [if_neg hsz]
    have hyn : y ≠ n := fun e => hx (by simp [e])
    have hy : y < h.length := seg_mem hl.seg y (by simp)
    obtain ⟨h1, e1, s1, f1, g1⟩ := setNext_spec h n ll.head hn
    obtain ⟨h2, e2, s2, f2, g2⟩ := setPrev_spec h1 n none (by rw [s1.1]; exact hn)
    obtain ⟨h3, e3, s3, f3, g3⟩ := setPrev_spec h2 y (some n) (by rw [s2.1, s1.1]; exact hy)
    have hh : ll.head = some y := hl.head
    rw [e1, Res.ok_bind, e2, Res.ok_bind, hh, e3, Res.ok_bind]
    obtain ⟨⟨dy, hdy⟩, hs⟩ := hl.seg
    have hnod := hl.nodup
    have hydis := (List.nodup_cons.mp hnod).1
    refine ⟨h3, _, rfl, ⟨List.nodup_cons.mpr ⟨hx, hnod⟩, ⟨⟨d, ?_⟩, ⟨dy, ?_⟩, ?_⟩, rfl, by rw [hl.size]; simp⟩, (s1.trans s2).trans s3, ?_⟩
    · rw [f3 n (fun e => hyn e.symm)]
      have := g2 _ _ _ (g1 _ _ _ hd)
      rw [this, hh]; rfl
    · apply g3
      rw [f2 y hyn, f1 y hyn, hdy]
    · apply seg_frame hs
      intro z hz
      have hzy : z ≠ y := fun e => hydis (e ▸ hz)
      have hzn : z ≠ n := fun e => hx (by simp [← e, hz])
      rw [f3 z hzy, f2 z hzn, f1 z hzn]
    · intro b hb
      simp only [List.mem_cons, not_or] at hb
      rw [f3 b hb.2.1, f2 b hb.1, f1 b hb.1]

theorem seg_last_next {h h' : Heap α} {p q q' : Option Nat} {a : List Nat} {x : Nat} (hs : Seg h p (a ++ [x]) q)
    (hx : ∀ d n pv, h[x]? = some ⟨d, n, pv⟩ → h'[x]? = some ⟨d, q', pv⟩) (hf : ∀ y ∈ a, h'[y]? = h[y]?) : Seg h' p (a ++ [x]) q' := by
  rw [seg_append] at hs ⊢
  refine ⟨seg_frame hs.1 hf, ?_⟩
  obtain ⟨⟨d, hd⟩, -⟩ := hs.2
  exact ⟨⟨d, by rw [hx _ _ _ hd]; rfl⟩, trivial⟩

theorem seg_first_prev {h h' : Heap α} {p p' q : Option Nat} {b : List Nat} {x : Nat} (hs : Seg h p (x :: b) q)
    (hx : ∀ d n pv, h[x]? = some ⟨d, n, pv⟩ → h'[x]? = some ⟨d, n, p'⟩) (hf : ∀ y ∈ b, h'[y]? = h[y]?) : Seg h' p' (x :: b) q := by
  obtain ⟨⟨d, hd⟩, hs⟩ := hs
  exact ⟨⟨d, hx _ _ _ hd⟩, seg_frame hs hf⟩

/-- removing a member -/
theorem remove_spec (h : Heap α) (ll : LinkedList) (xs : List Nat) (hl : IsList h ll xs) (n : Nat) (hn : n ∈ xs) :
    ∃ h' ll', Remove h ll n = .ok (h', ll') ∧ IsList h' ll' (xs.erase n) ∧ SameData h h' ∧ ∀ b, b ∉ xs → h'[b]? = h[b]? := by
  have hnl : n < h.length := seg_mem hl.seg n hn
  unfold Remove
  have hpos : 0 < xs.length := List.length_pos_of_mem hn
  rw [if_neg (by rw [hl.size]; omega)]
  by_cases h1 : ll.size = 1
  · rw [if_pos h1]
    have hx : xs = [n] := by
      rw [hl.size] at h1
      obtain ⟨y, rfl⟩ := List.length_eq_one_iff.mp (show xs.length = 1 by omega)
      rw [List.mem_singleton.mp hn]
    subst hx
    obtain ⟨h1, e1, s1, f1, g1⟩ := setPrev_spec h n none hnl
    obtain ⟨h2, e2, s2, f2, g2⟩ := setNext_spec h1 n none (by rw [s1.1]; exact hnl)
    rw [e1, Res.ok_bind, e2, Res.ok_bind]
    refine ⟨h2, _, rfl, ⟨by simp, by simp [Seg], by simp, by simp⟩, s1.trans s2, ?_⟩
    intro b hb
    have hb : b ≠ n := by simpa using hb
    rw [f2 b hb, f1 b hb]
  · rw [if_neg h1]
    obtain ⟨a, b, rfl⟩ := List.append_of_mem hn
    have hnod := hl.nodup
    have hnab : n ∉ a ∧ n ∉ b := by
      rw [List.nodup_append] at hnod
      exact ⟨fun hh => hnod.2.2 n hh n (by simp) rfl, (List.nodup_cons.mp hnod.2.1).1⟩
    have her : (a ++ n :: b).erase n = a ++ b := by
      rw [List.erase_append_right _ hnab.1, List.erase_cons_head]
    have hseg := hl.seg
    rw [seg_append] at hseg
    obtain ⟨sa, ⟨d, hd⟩, sb⟩ := hseg
    simp only [List.head?_cons, Option.or_none] at sa hd
    have hdis : ∀ y ∈ a, y ∉ b := by
      rw [List.nodup_append] at hnod
      exact fun y hy hyb => hnod.2.2 y hy y (by simp [hyb]) rfl
    have hnod' : (a ++ b).Nodup := her ▸ hnod.erase n
    have hlen : ll.size = (a ++ b).length + 1 := by
      rw [hl.size]; simp; omega
    rw [show deref h (some n) = .ok ⟨d, b.head?, a.getLast?⟩ by unfold deref; simp only [hd], Res.ok_bind]
    -- first update
    have step1 : ∃ h', removePrev h ⟨d, b.head?, a.getLast?⟩ = .ok h' ∧ SameData h h' ∧ Seg h' none a b.head? ∧
        (∀ y, y ∉ a → h'[y]? = h[y]?) := by
      unfold removePrev
      rcases List.eq_nil_or_concat a with rfl | ⟨a', x, rfl⟩
      · exact ⟨h, rfl, SameData.refl h, by simp [Seg], fun _ _ => rfl⟩
      · rw [List.concat_eq_append] at *
        have hx : x < h.length := seg_mem sa x (by simp)
        obtain ⟨h', e, s, f, g⟩ := setNext_spec h x b.head? hx
        refine ⟨h', ?_, s, ?_, ?_⟩
        · simp only [List.getLast?_append, List.getLast?_singleton, Option.some_or]
          rw [if_neg (by simp)]
          exact e
        · refine seg_last_next sa g ?_
          intro y hy
          apply f
          rintro rfl
          rw [List.append_assoc, List.nodup_append] at hnod
          exact hnod.2.2 y hy y (by simp) rfl
        · intro y hy
          exact f y (fun e => hy (by simp [e]))
    obtain ⟨h2, e2, s2, sa2, f2⟩ := step1
    rw [e2, Res.ok_bind]
    have hd2 : h2[n]? = some ⟨d, b.head?, a.getLast?⟩ := by rw [f2 n hnab.1, hd]
    rw [show deref h2 (some n) = .ok ⟨d, b.head?, a.getLast?⟩ by unfold deref; simp only [hd2], Res.ok_bind]
    have sb2 : Seg h2 (some n) b none := seg_frame sb (fun y hy => f2 y (fun hya => hdis y hya hy))
    have step2 : ∃ h', removeNext h2 ⟨d, b.head?, a.getLast?⟩ = .ok h' ∧ SameData h2 h' ∧ Seg h' a.getLast? b none ∧
        (∀ y, y ∉ b → h'[y]? = h2[y]?) := by
      unfold removeNext
      cases b with
      | nil => exact ⟨h2, rfl, SameData.refl h2, by simp [Seg], fun _ _ => rfl⟩
      | cons x b' =>
        have hx : x < h2.length := seg_mem sb2 x (by simp)
        obtain ⟨h', e, s, f, g⟩ := setPrev_spec h2 x a.getLast? hx
        refine ⟨h', ?_, s, ?_, ?_⟩
        · rw [if_neg (by simp)]; exact e
        · refine seg_first_prev sb2 g ?_
          intro y hy
          apply f
          rintro rfl
          rw [List.nodup_append] at hnod'
          exact (List.nodup_cons.mp hnod'.2.1).1 hy
        · intro y hy
          exact f y (fun e => hy (by simp [e]))
    obtain ⟨h3, e3, s3, sb3, f3⟩ := step2
    rw [e3, Res.ok_bind]
    refine ⟨h3, _, rfl, ?_, s2.trans s3, ?_⟩
    · rw [her]
      refine ⟨hnod', ?_, ?_, ?_⟩
      · rw [seg_append]
        simp only [Option.or_none]
        exact ⟨seg_frame sa2 (fun y hy => f3 y (hdis y hy)), sb3⟩
      · show removeHead ll n b.head? = _
        unfold removeHead
        rw [hl.head]
        cases a with
        | nil => simp
        | cons z a' =>
          simp only [List.cons_append, List.head?_cons, Option.some.injEq]
          rw [if_neg]
          rintro rfl
          exact hnab.1 (by simp)
      · show ll.size - 1 = _
        rw [hlen]; omega
    · intro y hy
      simp only [List.mem_append, List.mem_cons, not_or] at hy
      rw [f3 y hy.2.2, f2 y hy.1]

/-- a new node -/
theorem isList_alloc {h : Heap α} {ll : LinkedList} {xs : List Nat} (hl : IsList h ll xs) (nd : Node α) : IsList (h ++ [nd]) ll xs :=
  ⟨hl.nodup, seg_frame hl.seg (fun x hx => by rw [List.getElem?_append_left (seg_mem hl.seg x hx)]), hl.head, hl.size⟩

/-- lists on other nodes are not affected -/
theorem isList_frame {h h' : Heap α} {ll : LinkedList} {xs : List Nat} (hl : IsList h ll xs) (hf : ∀ x ∈ xs, h'[x]? = h[x]?) : IsList h' ll xs :=
  ⟨hl.nodup, seg_frame hl.seg hf, hl.head, hl.size⟩

theorem isList_nil (h : Heap α) : IsList h Make [] := ⟨by simp, by simp [Seg], rfl, rfl⟩

end Verif.DS
