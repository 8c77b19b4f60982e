import Verif.Lemmas.DS
import Verif.Lemmas.Bitfield
import Verif.Model.PieceTracker
import Verif.Spec.Avail
import Verif.Props.DS
/- The invariant of the availability tracker. -/
set_option autoImplicit false

namespace Verif.PieceTracker
open Verif.DS Verif.Bf Verif.Avail Verif.Bits

/-- the lists in the buckets are the lists `X` of nodes -/
structure Lists (t : Tracker) (size : Nat) (X : Nat → List Nat) : Prop where
  heap : t.heap.length = size
  nodes : t.nodes = List.range size
  buckets : t.buckets.length = 64
  lists : ∀ c, c < 64 → ∃ ll, t.buckets[c]? = some ll ∧ IsList t.heap ll (X c)
  disj : ∀ c d x, x ∈ X c → x ∈ X d → c = d

/-- the data of the nodes: node `i` is piece `i`, inactive, with the peers `a i` -/
def Datas (t : Tracker) (size : Nat) (a : State) : Prop :=
  ∀ i, i < size → ∃ s, (t.heap[i]?).map Node.data = some ⟨i, false, s⟩ ∧ s.map Prod.fst = a i

/-- the invariant -/
structure Inv (t : Tracker) (size : Nat) (a : State) : Prop where
  ex : ∃ X, Lists t size X ∧ ∀ i c, i < size → (i ∈ X c ↔ c = (a i).length)
  data : Datas t size a
  nodup : ∀ i, (a i).Nodup
  le : ∀ i, (a i).length ≤ 63

theorem Lists.mem_lt {t : Tracker} {size : Nat} {X : Nat → List Nat} (h : Lists t size X) {c x : Nat} (hc : c < 64) (hx : x ∈ X c) : x < size := by
  obtain ⟨ll, -, il⟩ := h.lists c hc
  rw [← h.heap]
  exact seg_mem il.seg x hx

/-- removing a node from its bucket -/
theorem bucketRemove_spec {t : Tracker} {size : Nat} {X : Nat → List Nat} (h : Lists t size X) (c n : Nat) (hc : c < 64) (hn : n ∈ X c) :
    ∃ t', bucketRemove t c n = .ok t' ∧ Lists t' size (fun d => if d = c then (X c).erase n else X d) ∧ SameData t.heap t'.heap ∧
      t'.requests = t.requests := by
  obtain ⟨ll, hb, il⟩ := h.lists c hc
  obtain ⟨h', ll', e, il', sd, fr⟩ := remove_spec t.heap ll (X c) il n hn
  refine ⟨{ t with heap := h', buckets := t.buckets.set c ll' }, ?_, ⟨?_, h.nodes, ?_, ?_, ?_⟩, sd, rfl⟩
  · unfold bucketRemove bucket
    simp only [hb, Res.ok_bind, e]
  · exact sd.1.trans h.heap
  · show (t.buckets.set c ll').length = 64
    rw [List.length_set]; exact h.buckets
  · intro d hd
    show ∃ l, (t.buckets.set c ll')[d]? = some l ∧ _
    rw [List.getElem?_set]
    by_cases hcd : c = d
    · subst hcd
      exact ⟨ll', by simp [h.buckets, hc], by simpa using il'⟩
    · have hdc : ¬ d = c := fun e => hcd e.symm
      obtain ⟨l, hl, il2⟩ := h.lists d hd
      refine ⟨l, by simp [hcd, hl], ?_⟩
      simp only [hdc, if_false]
      exact isList_frame il2 (fun x hx => fr x (fun hxc => hcd (h.disj _ _ _ hxc hx)))
  · intro d e x hxd hxe
    have aux : ∀ d, x ∈ (if d = c then (X c).erase n else X d) → x ∈ X d := by
      intro d hx
      by_cases hdc : d = c
      · rw [if_pos hdc] at hx; rw [hdc]; exact List.mem_of_mem_erase hx
      · rw [if_neg hdc] at hx; exact hx
    exact h.disj d e x (aux d hxd) (aux e hxe)

/-- adding a detached node to a bucket -/
theorem bucketAdd_spec {t : Tracker} {size : Nat} {X : Nat → List Nat} (h : Lists t size X) (c n : Nat) (hc : c < 64) (hn : n < size)
    (hd : ∀ d, n ∉ X d) :
    ∃ t', bucketAdd t c n = .ok t' ∧ Lists t' size (fun d => if d = c then n :: X c else X d) ∧ SameData t.heap t'.heap ∧
      t'.requests = t.requests := by
  obtain ⟨ll, hb, il⟩ := h.lists c hc
  obtain ⟨h', ll', e, il', sd, fr⟩ := addNodeFront_spec t.heap ll (X c) il n (by rw [h.heap]; exact hn) (hd c)
  refine ⟨{ t with heap := h', buckets := t.buckets.set c ll' }, ?_, ⟨?_, h.nodes, ?_, ?_, ?_⟩, sd, rfl⟩
  · unfold bucketAdd bucket
    simp only [hb, Res.ok_bind, e]
  · exact sd.1.trans h.heap
  · show (t.buckets.set c ll').length = 64
    rw [List.length_set]; exact h.buckets
  · intro d hd'
    show ∃ l, (t.buckets.set c ll')[d]? = some l ∧ _
    rw [List.getElem?_set]
    by_cases hcd : c = d
    · subst hcd
      exact ⟨ll', by simp [h.buckets, hc], by simpa using il'⟩
    · have hdc : ¬ d = c := fun e => hcd e.symm
      obtain ⟨l, hl, il2⟩ := h.lists d hd'
      refine ⟨l, by simp [hcd, hl], ?_⟩
      simp only [hdc, if_false]
      refine isList_frame il2 (fun x hx => fr x ?_)
      intro hxc
      rcases List.mem_cons.mp hxc with rfl | hxc
      · exact hd d hx
      · exact hcd (h.disj _ _ _ hxc hx)
  · clear e
    intro d e x hxd hxe
    have aux : ∀ d, x ∈ (if d = c then n :: X c else X d) → (x = n ∧ d = c) ∨ x ∈ X d := by
      intro d hx
      by_cases hdc : d = c
      · rw [if_pos hdc] at hx
        rcases List.mem_cons.mp hx with rfl | hx
        · exact .inl ⟨rfl, hdc⟩
        · exact .inr (hdc ▸ hx)
      · rw [if_neg hdc] at hx; exact .inr hx
    rcases aux d hxd with ⟨h0, h1⟩ | h1 <;> rcases aux e hxe with ⟨h2, h3⟩ | h2
    · exact h1.trans h3.symm
    · exact absurd (h0 ▸ h2) (hd e)
    · exact absurd (h2 ▸ h1) (hd d)
    · exact h.disj d e x h1 h2

theorem modify_data (h : Heap Piece) (n b : Nat) (f : Set PH → Set PH) :
    ((h.modify n fun nd => { nd with data := { nd.data with peerSet := f nd.data.peerSet } })[b]?) =
      (h[b]?).map fun nd => if b = n then { nd with data := { nd.data with peerSet := f nd.data.peerSet } } else nd := by
  rw [List.getElem?_modify]
  by_cases hb : n = b
  · subst hb; simp
  · have : ¬ b = n := fun e => hb e.symm
    simp [hb, this]

theorem seg_modify {h : Heap Piece} {n : Nat} {f : Set PH → Set PH} {p q : Option Nat} {xs : List Nat} (hs : Seg h p xs q) :
    Seg (h.modify n fun nd => { nd with data := { nd.data with peerSet := f nd.data.peerSet } }) p xs q := by
  induction xs generalizing p with
  | nil => trivial
  | cons x xs ih =>
    obtain ⟨⟨d, hd⟩, hs⟩ := hs
    refine ⟨?_, ih hs⟩
    rw [modify_data, hd, Option.map_some]
    by_cases hx : x = n
    · rw [if_pos hx]; exact ⟨_, rfl⟩
    · rw [if_neg hx]; exact ⟨_, rfl⟩

theorem setPeers_lists {t : Tracker} {size : Nat} {X : Nat → List Nat} (h : Lists t size X) (n : Nat) (f : Set PH → Set PH) :
    Lists (setPeers t n f) size X := by
  refine ⟨?_, h.nodes, h.buckets, ?_, h.disj⟩
  · unfold setPeers; simp only [List.length_modify]; exact h.heap
  · intro c hc
    obtain ⟨ll, hb, il⟩ := h.lists c hc
    exact ⟨ll, hb, ⟨il.nodup, seg_modify il.seg, il.head, il.size⟩⟩

theorem setPeers_data (t : Tracker) (n i : Nat) (f : Set PH → Set PH) (x : Piece) (h : (t.heap[i]?).map Node.data = some x) :
    ((setPeers t n f).heap[i]?).map Node.data = some (if i = n then { x with peerSet := f x.peerSet } else x) := by
  unfold setPeers
  simp only
  rw [modify_data]
  cases hg : t.heap[i]? with
  | none => rw [hg] at h; cases h
  | some nd =>
    rw [hg] at h
    simp only [Option.map_some, Option.some.injEq] at h ⊢
    subst h
    by_cases hi : i = n <;> simp [hi]

/-- moving a node from one bucket to another, and changing its peer set -/
theorem move_spec {t : Tracker} {size : Nat} {a : State} (h : Inv t size a) (n c' : Nat) (hn : n < size) (hc' : c' < 64)
    (l : List Bytes) (hl : l.length = c') (hnd : l.Nodup) (f : Set PH → Set PH) (hf : ∀ s : Set PH, s.map Prod.fst = a n → (f s).map Prod.fst = l) :
    ∃ t1 t2, bucketRemove t (a n).length n = .ok t1 ∧ bucketAdd t1 c' n = .ok t2 ∧
      Inv (setPeers t2 n f) size (fun j => if j = n then l else a j) ∧ (setPeers t2 n f).requests = t.requests := by
  obtain ⟨X, hX, hm⟩ := h.ex
  have hc : (a n).length < 64 := by have := h.le n; omega
  obtain ⟨t1, e1, l1, s1, r1⟩ := bucketRemove_spec hX (a n).length n hc ((hm n _ hn).mpr rfl)
  have hXn : (X (a n).length).Nodup := by
    obtain ⟨ll, -, il⟩ := hX.lists _ hc
    exact il.nodup
  have hdet : ∀ d, n ∉ (if d = (a n).length then (X (a n).length).erase n else X d) := by
    intro d
    by_cases hd : d = (a n).length
    · rw [if_pos hd]; exact List.Nodup.not_mem_erase hXn
    · rw [if_neg hd]; intro hx; exact hd ((hm n d hn).mp hx)
  obtain ⟨t2, e2, l2, s2, r2⟩ := bucketAdd_spec l1 c' n hc' hn hdet
  refine ⟨t1, t2, e1, e2, ⟨⟨_, setPeers_lists l2 n f, ?_⟩, ?_, ?_, ?_⟩, ?_⟩
  · intro i c hi
    by_cases hin : i = n
    · subst hin
      simp only [if_true]
      by_cases hcc : c = c'
      · subst hcc; simp [hl]
      · rw [if_neg hcc]
        constructor
        · intro hx; exact absurd hx (hdet c)
        · intro hx; exact absurd (hx.trans hl) hcc
    · rw [if_neg hin, ← hm i c hi]
      by_cases hcc : c = c'
      · subst hcc
        rw [if_pos rfl]
        simp only [List.mem_cons, hin, false_or]
        by_cases hca : c = (a n).length
        · rw [if_pos hca, List.mem_erase_of_ne hin, hca]
        · rw [if_neg hca]
      · rw [if_neg hcc]
        by_cases hca : c = (a n).length
        · rw [if_pos hca, List.mem_erase_of_ne hin, hca]
        · rw [if_neg hca]
  · intro i hi
    obtain ⟨s, hs, hsa⟩ := h.data i hi
    have hs2 : (t2.heap[i]?).map Node.data = some ⟨i, false, s⟩ := by
      rw [(s1.trans s2).2 i]; exact hs
    by_cases hin : i = n
    · subst hin
      refine ⟨f s, by rw [setPeers_data t2 i i f _ hs2]; simp, ?_⟩
      simp only [if_true]
      exact hf s hsa
    · refine ⟨s, by rw [setPeers_data t2 n i f _ hs2]; simp [hin], ?_⟩
      simp only [hin, if_false]
      exact hsa
  · intro i
    by_cases hin : i = n <;> simp only [hin, if_true, if_false]
    · exact hnd
    · exact h.nodup i
  · intro i
    by_cases hin : i = n <;> simp only [hin, if_true, if_false]
    · omega
    · exact h.le i
  · show t2.requests = _
    rw [r2, r1]

theorem Inv.node {t : Tracker} {size : Nat} {a : State} (h : Inv t size a) (i : Nat) (hi : i < size) : t.nodes[i]? = some i := by
  obtain ⟨X, hX, -⟩ := h.ex
  rw [hX.nodes, List.getElem?_range hi]

theorem Inv.deref {t : Tracker} {size : Nat} {a : State} (h : Inv t size a) (i : Nat) (hi : i < size) :
    ∃ nd s, DS.deref t.heap (some i) = .ok nd ∧ t.heap[i]? = some nd ∧ nd.data = ⟨i, false, s⟩ ∧ s.map Prod.fst = a i ∧
      (∀ w : PH, s.Has PH.key w = decide (w.key ∈ a i)) ∧ s.length = (a i).length := by
  obtain ⟨s, hs, hsa⟩ := h.data i hi
  cases hg : t.heap[i]? with
  | none => rw [hg] at hs; cases hs
  | some nd =>
    rw [hg] at hs
    refine ⟨nd, s, ?_, rfl, by simpa using hs, hsa, ?_, ?_⟩
    · unfold DS.deref; simp only [hg]
    · intro w
      unfold Set.Has
      rw [Bool.eq_iff_iff, has_iff, hsa]; simp
    · rw [← hsa, List.length_map]

/-- `register`: nothing if already there, one more peer, or a panic at the 64th -/
theorem register_spec {t : Tracker} {size : Nat} {a : State} (h : Inv t size a) (w : PH) (i : Nat) (hi : i < size) :
    ((∀ j, ((Step.reg w.key i).effect a j).length ≤ 63) →
      ∃ t', register t w i = .ok t' ∧ Inv t' size ((Step.reg w.key i).effect a) ∧ t'.requests = t.requests) ∧
    ((¬ ∀ j, ((Step.reg w.key i).effect a j).length ≤ 63) → register t w i = .panic) := by
  obtain ⟨nd, s, hd, -, hdat, hsa, hhas, hlen⟩ := h.deref i hi
  unfold register
  simp only [h.node i hi, hd, Res.ok_bind, hdat, hhas]
  by_cases hk : w.key ∈ a i
  · have he : (Step.reg w.key i).effect a = a := by
      funext j; simp only [Step.effect]; rw [if_neg (fun hh => hh.2 hk)]
    rw [he]
    simp only [hk, decide_true, if_true]
    exact ⟨fun _ => ⟨t, rfl, h, rfl⟩, fun hh => absurd h.le hh⟩
  · have he : (Step.reg w.key i).effect a = fun j => if j = i then a i ++ [w.key] else a j := by
      funext j; simp only [Step.effect, hk, not_false_eq_true, and_true]
    simp only [hk, decide_false, Bool.false_eq_true, if_false]
    have hle := h.le i
    unfold moveUp
    rw [hlen, if_pos (show (a i).length < numBuckets by unfold numBuckets; omega), he]
    by_cases h63 : (a i).length = 63
    · refine ⟨?_, ?_⟩
      · intro hh
        have := hh i
        simp only [if_true, List.length_append, List.length_singleton] at this
        omega
      · intro _
        obtain ⟨X, hX, hm⟩ := h.ex
        obtain ⟨t1, e1, l1, -, -⟩ := bucketRemove_spec hX (a i).length i (by omega) ((hm i _ hi).mpr rfl)
        rw [e1, Res.ok_bind]
        unfold bucketAdd bucket
        rw [h63, List.getElem?_eq_none (by rw [l1.buckets]; omega)]
        rfl
    · refine ⟨fun _ => ?_, ?_⟩
      · obtain ⟨t1, t2, e1, e2, iv, rq⟩ := move_spec h i ((a i).length + 1) hi (by omega) (a i ++ [w.key]) (by simp)
          (by
            rw [List.nodup_append]
            exact ⟨h.nodup i, by simp, fun x hx y hy => by simp only [List.mem_singleton] at hy; rintro rfl; exact hk (hy ▸ hx)⟩)
          (fun s => (s.Add PH.key w).1)
          (by
            intro s hs
            unfold Set.Add Set.Has
            rw [if_neg (by rw [has_iff, hs]; exact hk), List.map_append, hs]; rfl)
        rw [e1, Res.ok_bind, e2, Res.ok_bind]
        exact ⟨_, rfl, iv, rq⟩
      · intro hh
        refine absurd ?_ hh
        intro j
        by_cases hji : j = i
        · simp only [hji, if_true, List.length_append, List.length_singleton]; omega
        · simp only [hji, if_false]; exact h.le j

theorem register_out (t : Tracker) (size : Nat) (a : State) (h : Inv t size a) (w : PH) (i : Nat) (hi : size ≤ i) : register t w i = .panic := by
  obtain ⟨X, hX, -⟩ := h.ex
  unfold register
  rw [hX.nodes, List.getElem?_eq_none (by simpa using hi)]

/-- one node of `Unregister` -/
theorem unregisterNode_spec {t : Tracker} {size : Nat} {a : State} (h : Inv t size a) (w : PH) (i : Nat) (hi : i < size) :
    ∃ t', unregisterNode t w i = .ok t' ∧ Inv t' size (fun j => if j = i then (a i).filter (fun x => x != w.key) else a j) ∧
      t'.requests = t.requests := by
  obtain ⟨nd, s, hd, -, hdat, hsa, hhas, hlen⟩ := h.deref i hi
  unfold unregisterNode
  simp only [hd, Res.ok_bind, hdat, hhas]
  by_cases hk : w.key ∈ a i
  · simp only [hk, decide_true, if_true]
    have hle := h.le i
    unfold moveDown
    rw [hlen, if_pos (show (a i).length ≤ numBuckets by unfold numBuckets; omega)]
    have hfl : ((a i).filter (fun x => x != w.key)).length = (a i).length - 1 := by
      rw [← (h.nodup i).erase_eq_filter, List.length_erase_of_mem hk]
    obtain ⟨t1, t2, e1, e2, iv, rq⟩ := move_spec h i ((a i).length - 1) hi (by omega) ((a i).filter (fun x => x != w.key)) hfl
      ((h.nodup i).filter _) (fun s => (s.Remove PH.key w).1)
      (by
        intro s hs
        unfold Set.Remove Set.Has
        rw [if_pos (by rw [has_iff, hs]; exact hk), ← hs, List.filter_map]; rfl)
    rw [e1, Res.ok_bind, e2, Res.ok_bind]
    exact ⟨_, rfl, iv, rq⟩
  · simp only [hk, decide_false, Bool.false_eq_true, if_false]
    refine ⟨t, rfl, ?_, rfl⟩
    have he : (fun j => if j = i then (a i).filter (fun x => x != w.key) else a j) = a := by
      funext j
      by_cases hji : j = i
      · rw [if_pos hji, hji]
        refine List.filter_eq_self.mpr ?_
        intro x hx
        simp only [bne_iff_ne, ne_eq]
        rintro rfl
        exact hk hx
      · rw [if_neg hji]
    rw [he]; exact h

theorem unregisterLoop_spec (w : PH) (ns : List Nat) {t : Tracker} {size : Nat} {a : State} (h : Inv t size a) (hns : ∀ n ∈ ns, n < size) :
    ∃ t', unregisterLoop w ns t = .ok t' ∧ Inv t' size (fun j => if j ∈ ns then (a j).filter (fun x => x != w.key) else a j) ∧
      t'.requests = t.requests := by
  induction ns generalizing t a with
  | nil => exact ⟨t, rfl, by simpa using h, rfl⟩
  | cons n ns ih =>
    obtain ⟨t1, e1, i1, r1⟩ := unregisterNode_spec h w n (hns n (by simp))
    obtain ⟨t2, e2, i2, r2⟩ := ih i1 (fun m hm => hns m (by simp [hm]))
    refine ⟨t2, ?_, ?_, r2.trans r1⟩
    · rw [unregisterLoop, e1, Res.ok_bind, e2]
    · refine cast (congrArg (Inv t2 size) ?_) i2
      funext j
      by_cases hjn : j = n
      · subst hjn
        by_cases hj : j ∈ ns
        · simp [hj, List.filter_filter]
        · simp [hj]
      · by_cases hj : j ∈ ns <;> simp [hj, hjn]

theorem Inv.congr {t : Tracker} {size : Nat} {a b : State} (h : Inv t size a) (hab : ∀ i, i < size → a i = b i) (hn : ∀ i, (b i).Nodup) (hl : ∀ i, (b i).length ≤ 63) : Inv t size b := by
  obtain ⟨X, hX, hm⟩ := h.ex
  refine ⟨⟨X, hX, fun i c hi => by rw [hm i c hi, hab i hi]⟩, ?_, hn, hl⟩
  intro i hi
  rw [← hab i hi]
  exact h.data i hi

theorem Inv.requests {t : Tracker} {size : Nat} {a : State} (h : Inv t size a) (r : List (Nat × List (Nat × Bool))) : Inv { t with requests := r } size a := by
  obtain ⟨X, hX, hm⟩ := h.ex
  exact ⟨⟨X, ⟨hX.heap, hX.nodes, hX.buckets, hX.lists, hX.disj⟩, hm⟩, h.data, h.nodup, h.le⟩

theorem unregister_spec {t : Tracker} {size : Nat} {a : State} (h : Inv t size a) (w : PH) :
    ∃ t', Unregister t w = .ok t' ∧ Inv t' size ((Step.unreg w.key).effect a) ∧
      t'.requests = t.requests.map fun r => if r.1 = w.ptr then (r.1, r.2.map fun p => (p.1, false)) else r := by
  obtain ⟨X, hX, hm⟩ := h.ex
  have h' := h.requests (t.requests.map fun r => if r.1 = w.ptr then (r.1, r.2.map fun p => (p.1, false)) else r)
  obtain ⟨t', e, iv, rq⟩ := unregisterLoop_spec w t.nodes h' (by rw [hX.nodes]; simp)
  refine ⟨t', e, iv.congr ?_ (fun i => (h.nodup i).filter _) (fun i => Nat.le_trans (List.length_filter_le _ _) (h.le i)), rq⟩
  intro i hi
  have : i ∈ t.nodes := by rw [hX.nodes]; simpa using hi
  simp only [this, if_true, Step.effect]

/-! ### the initial state -/

theorem initLoop_spec (left i : Nat) (t : Tracker) (h : Inv t i empty) :
    ∃ t', initLoop left i t = .ok t' ∧ Inv t' (i + left) empty ∧ t'.requests = t.requests := by
  induction left generalizing i t with
  | zero => exact ⟨t, rfl, h, rfl⟩
  | succ left ih =>
    obtain ⟨X, hX, hm⟩ := h.ex
    obtain ⟨ll, hb, il⟩ := hX.lists 0 (by omega)
    have hlen := hX.heap
    have hno : ∀ c, c < 64 → t.heap.length ∉ X c := by
      intro c hc hx
      have := hX.mem_lt hc hx
      omega
    obtain ⟨h', ll', e, il', sd, fr⟩ := addNodeFront_spec (t.heap ++ [⟨⟨i, false, MakeSet PH⟩, none, none⟩]) ll (X 0)
      (isList_alloc il _) t.heap.length (by simp) (hno 0 (by omega))
    have hstep : Inv { t with heap := h', buckets := t.buckets.set 0 ll', nodes := t.nodes ++ [t.heap.length] } (i + 1) empty := by
      refine ⟨⟨fun d => if d = 0 then i :: X 0 else if d < 64 then X d else [], ⟨?_, ?_, ?_, ?_, ?_⟩, ?_⟩, ?_, fun _ => List.nodup_nil, fun _ => Nat.zero_le _⟩
      · show h'.length = i + 1
        rw [sd.1, List.length_append, hlen]; rfl
      · show t.nodes ++ [t.heap.length] = _
        rw [hX.nodes, hlen, List.range_succ]
      · show (t.buckets.set 0 ll').length = 64
        rw [List.length_set]; exact hX.buckets
      · intro c hc
        show ∃ l, (t.buckets.set 0 ll')[c]? = some l ∧ _
        rw [List.getElem?_set]
        by_cases hcd : 0 = c
        · subst hcd
          exact ⟨ll', by simp [hX.buckets], by simpa [hlen] using il'⟩
        · have hdc : ¬ c = 0 := fun e => hcd e.symm
          obtain ⟨l, hl, il2⟩ := hX.lists c hc
          refine ⟨l, by simp [hcd, hl], ?_⟩
          simp only [hdc, if_false, hc, if_true]
          refine isList_frame (isList_alloc il2 _) (fun x hx => fr x ?_)
          intro hxc
          rcases List.mem_cons.mp hxc with rfl | hxc
          · exact hno c hc hx
          · exact hcd (hX.disj _ _ _ hxc hx)
      · have aux : ∀ d x, x ∈ (if d = 0 then i :: X 0 else if d < 64 then X d else []) → (x = i ∧ d = 0) ∨ (x ∈ X d ∧ x < i) := by
          intro d x hx
          by_cases hd0 : d = 0
          · rw [if_pos hd0] at hx
            rcases List.mem_cons.mp hx with rfl | hx
            · exact .inl ⟨rfl, hd0⟩
            · exact .inr ⟨hd0 ▸ hx, hX.mem_lt (by omega) hx⟩
          · rw [if_neg hd0] at hx
            by_cases hd : d < 64
            · rw [if_pos hd] at hx; exact .inr ⟨hx, hX.mem_lt hd hx⟩
            · rw [if_neg hd] at hx; cases hx
        intro c d x hxc hxd
        rcases aux c x hxc with ⟨h1, h2⟩ | ⟨h1, h2⟩ <;> rcases aux d x hxd with ⟨h3, h4⟩ | ⟨h3, h4⟩
        · omega
        · omega
        · omega
        · exact hX.disj _ _ _ h1 h3
      · intro j c hj
        simp only [empty, List.length_nil]
        by_cases hc0 : c = 0
        · subst hc0
          simp only [if_true, List.mem_cons, iff_true]
          by_cases hji : j = i
          · exact .inl hji
          · exact .inr ((hm j 0 (by omega)).mpr rfl)
        · simp only [hc0, if_false, iff_false]
          by_cases hc : c < 64
          · rw [if_pos hc]
            intro hx
            have hl := hX.mem_lt hc hx
            have := (hm j c hl).mp hx
            simp only [empty, List.length_nil] at this
            exact hc0 this
          · rw [if_neg hc]; exact List.not_mem_nil
      · intro j hj
        refine ⟨[], ?_, rfl⟩
        show (h'[j]?).map Node.data = _
        rw [sd.2 j]
        by_cases hji : j = i
        · rw [List.getElem?_append_right (by omega), hji, hlen]
          simp [MakeSet]
        · obtain ⟨s, hs, hse⟩ := h.data j (by omega)
          have : s = [] := by simpa [empty] using hse
          rw [List.getElem?_append_left (by omega), hs, this]
    obtain ⟨t', e', iv, rq⟩ := ih (i + 1) _ hstep
    refine ⟨t', ?_, by rw [show i + (left + 1) = i + 1 + left by omega]; exact iv, rq⟩
    rw [initLoop]
    unfold bucket
    simp only [hb, Res.ok_bind, AddDataFront, e]
    exact e'

theorem new_spec (size : Nat) : ∃ t, NewPeerPieceTracker size = .ok t ∧ Inv t size empty ∧ t.requests = [] := by
  obtain ⟨t, e, iv, rq⟩ := initLoop_spec size 0 ⟨[], [], List.replicate numBuckets Make, []⟩ (by
    refine ⟨⟨fun _ => [], ⟨rfl, rfl, by simp [numBuckets], ?_, by simp⟩, by intro i c hi; omega⟩, by intro i hi; omega, fun _ => List.nodup_nil, fun _ => Nat.zero_le _⟩
    intro c hc
    exact ⟨Make, List.getElem?_replicate_of_lt hc, isList_nil _⟩)
  exact ⟨t, e, by rw [Nat.zero_add] at iv; exact iv, rq⟩

/-! ### registering several pieces -/

theorem atMost_append (m : Nat) (a : State) (s1 s2 : List Step) :
    AtMost m a (s1 ++ s2) ↔ AtMost m a s1 ∧ AtMost m (s1.foldl Step.effect a) s2 := by
  induction s1 generalizing a with
  | nil => simp [AtMost]
  | cons s s1 ih => rw [List.cons_append, AtMost, ih, AtMost, List.foldl_cons, and_assoc]

/-- outcome of a call that stands for the given steps -/
def Does (t : Tracker) (size : Nat) (a : State) (steps : List Step) (r : Res Tracker) : Prop :=
  (AtMost 63 a steps → ∃ t', r = .ok t' ∧ Inv t' size (steps.foldl Step.effect a) ∧ t'.requests = t.requests) ∧
  (¬ AtMost 63 a steps → r = .panic)

theorem does_cons {t : Tracker} {size : Nat} {a : State} {w : PH} {i : Nat} {steps : List Step} (h : Inv t size a) (hi : i < size)
    (f : Tracker → Res Tracker)
    (hf : ∀ t', t'.requests = t.requests → Inv t' size ((Step.reg w.key i).effect a) → Does t' size ((Step.reg w.key i).effect a) steps (f t')) :
    Does t size a (.reg w.key i :: steps) (register t w i >>= f) := by
  obtain ⟨h1, h2⟩ := register_spec h w i hi
  constructor
  · rintro ⟨hle, hrest⟩
    obtain ⟨t', e, iv, rq⟩ := h1 hle
    obtain ⟨t2, e2, iv2, rq2⟩ := (hf t' rq iv).1 hrest
    exact ⟨t2, by rw [e, Res.ok_bind, e2], iv2, rq2.trans rq⟩
  · intro hn
    by_cases hle : ∀ j, ((Step.reg w.key i).effect a j).length ≤ 63
    · obtain ⟨t', e, iv, rq⟩ := h1 hle
      rw [e, Res.ok_bind]
      exact (hf t' rq iv).2 (fun hh => hn ⟨hle, hh⟩)
    · rw [h2 hle]; rfl

theorem Register_does (w : PH) (is : List Nat) {t : Tracker} {size : Nat} {a : State} (h : Inv t size a) (hi : ∀ i ∈ is, i < size) :
    Does t size a (is.map (Step.reg w.key)) (Register t w is) := by
  induction is generalizing t a with
  | nil => exact ⟨fun _ => ⟨t, rfl, h, rfl⟩, fun hh => absurd trivial hh⟩
  | cons i is ih => exact does_cons h (hi i (by simp)) _ (fun t' _ iv => ih iv (fun j hj => hi j (by simp [hj])))

theorem registerBFLoop_does (b : Bitfield) (w : PH) (left index : Nat) {t : Tracker} {size : Nat} {a : State} (h : Inv t size a)
    (hsz : size ≤ 2 ^ 32) (hl : index + left ≤ 8 * b.data.length) (hb : ∀ i, i < index + left → bit b.data i = true → i < size) :
    Does t size a (((List.range' index left).filter (bit b.data)).map (Step.reg w.key)) (registerBFLoop b w left index t) := by
  induction left generalizing t a index with
  | zero => exact ⟨fun _ => ⟨t, rfl, h, rfl⟩, fun hh => absurd trivial hh⟩
  | succ left ih =>
    have hg : b.Get (index : Int) = .ok (bit b.data index) := by rw [get_nat, if_pos (by omega)]
    rw [List.range'_succ]
    rw [registerBFLoop, hg, Res.ok_bind]
    by_cases hbit : bit b.data index = true
    · have hlt := hb index (by omega) hbit
      rw [List.filter_cons_of_pos hbit, List.map_cons]
      simp only [hbit, if_true]
      rw [Nat.mod_eq_of_lt (by omega)]
      exact does_cons h hlt _ (fun t' _ iv => ih (index + 1) iv (by omega) (fun i hi => hb i (by omega)))
    · rw [List.filter_cons_of_neg hbit]
      simp only [hbit, Bool.false_eq_true, if_false]
      exact ih (index + 1) h (by omega) (fun i hi => hb i (by omega))

theorem RegisterBF_does (b : Bitfield) (w : PH) {t : Tracker} {size : Nat} {a : State} (h : Inv t size a) (hw : Wf b)
    (hsz : size ≤ 2 ^ 32) (hb : ∀ i : Nat, (i : Int) < b.nbits → bit b.data i = true → i < size) :
    Does t size a (((List.range b.nbits.toNat).filter (bit b.data)).map (Step.reg w.key)) (RegisterBF t w b) := by
  rw [List.range_eq_range']
  have h1 := hw.data_len
  have h2 := hw.hi
  have h3 := hw.lo
  exact registerBFLoop_does b w b.nbits.toNat 0 h hsz (by omega) (fun i hi hbit => hb i (by omega) hbit)

/-! ### NextPiece -/

theorem nodup_length_le (n : Nat) (l : List Nat) (hn : l.Nodup) (hl : ∀ x ∈ l, x < n) : l.length ≤ n := by
  induction n generalizing l with
  | zero =>
    cases l with
    | nil => simp
    | cons x l => exact absurd (hl x (by simp)) (by omega)
  | succ n ih =>
    have h1 := ih (l.erase n) (hn.erase n) (by
      intro x hx
      have := hl x (List.mem_of_mem_erase hx)
      have : x ≠ n := fun e => absurd (e ▸ hx) hn.not_mem_erase
      omega)
    have := List.length_erase_le (a := n) (l := l)
    rw [List.length_erase] at h1
    split at h1 <;> omega

/-- the pieces `NextPiece` looks for -/
def wanted (own : Bitfield) (a : State) (w : PH) (i : Nat) : Bool := !bit own.data i && decide (w.key ∈ a i)

theorem scanList_spec {t : Tracker} {size : Nat} {a : State} (h : Inv t size a) (own : Bitfield) (hown : size ≤ 8 * own.data.length) (w : PH)
    (xs : List Nat) (hxs : ∀ x ∈ xs, x < size) (p : Option Nat) (hs : Seg t.heap p xs none) (fuel : Nat) (hf : xs.length ≤ fuel) :
    scanList t.heap own w fuel xs.head? = .ok (xs.find? (wanted own a w)) := by
  induction xs generalizing p fuel with
  | nil => rw [List.head?_nil, List.find?_nil, scanList.eq_def]
  | cons x xs ih =>
    obtain ⟨⟨d, hd⟩, hs⟩ := hs
    cases fuel with
    | zero => cases hf
    | succ fuel =>
      have hx := hxs x (by simp)
      obtain ⟨nd, s, hdr, hget, hdat, -, hhas, -⟩ := h.deref x hx
      have hnx : nd.next = xs.head? := by
        rw [hd] at hget; cases hget; simp
      rw [List.head?_cons, scanList, hdr, Res.ok_bind]
      simp only [hdat, hhas, get_nat]
      rw [if_pos (by omega), Res.ok_bind, List.find?_cons]
      by_cases hw : wanted own a w x = true
      · have hw' := hw
        unfold wanted at hw'
        simp only [Bool.not_false, Bool.true_and, hw', hw, if_true]
      · have hw' := hw
        unfold wanted at hw'
        simp only [Bool.not_false, Bool.true_and, hw', hw, hnx]
        exact ih (fun y hy => hxs y (by simp [hy])) (some x) hs fuel (by simpa using hf)

theorem scanBuckets_spec {t : Tracker} {size : Nat} {a : State} (h : Inv t size a) (own : Bitfield) (hown : size ≤ 8 * own.data.length) (w : PH)
    (X : Nat → List Nat) (lls : List LinkedList) (c0 : Nat) (hl : ∀ (k : Nat) (ll : LinkedList), lls[k]? = some ll → IsList t.heap ll (X (c0 + k)))
    (hys : ∀ c, c < c0 + lls.length → ∀ x ∈ X c, x < size) :
    scanBuckets t.heap own w lls = .ok (((List.range' c0 lls.length).flatMap X).find? (wanted own a w)) := by
  induction lls generalizing c0 with
  | nil => simp [scanBuckets]
  | cons ll lls ih =>
    have il := hl 0 ll rfl
    rw [Nat.add_zero] at il
    have h1 := scanList_spec h own hown w (X c0) (hys c0 (by simp)) none il.seg (t.heap.length + 1) (by
      have := nodup_length_le t.heap.length (X c0) il.nodup (fun x hx => seg_mem il.seg x hx)
      omega)
    rw [← il.head] at h1
    rw [scanBuckets, h1, Res.ok_bind, List.length_cons, List.range'_succ, List.flatMap_cons, List.find?_append]
    cases hfnd : (X c0).find? (wanted own a w) with
    | some i => simp
    | none =>
      simp only [Option.none_or]
      refine ih (c0 + 1) (fun k ll hk => ?_) (fun c hc => hys c (by rw [List.length_cons]; omega))
      have := hl (k + 1) ll (by simpa using hk)
      rwa [show c0 + 1 + k = c0 + (k + 1) by omega]

/-- the first match in a list of buckets is in the first bucket that has a match -/
theorem find_flatMap {X : Nat → List Nat} {p : Nat → Bool} (c0 n : Nat) {i : Nat} (h : ((List.range' c0 n).flatMap X).find? p = some i) :
    ∃ c, i ∈ X c ∧ ∀ d j, c0 ≤ d → d < c → j ∈ X d → p j = false := by
  induction n generalizing c0 with
  | zero => simp at h
  | succ n ih =>
    rw [List.range'_succ, List.flatMap_cons, List.find?_append] at h
    cases hf : (X c0).find? p with
    | some j =>
      rw [hf] at h
      simp only [Option.some_or, Option.some.injEq] at h
      subst h
      exact ⟨c0, List.mem_of_find?_eq_some hf, fun d k h1 h2 => by omega⟩
    | none =>
      rw [hf, Option.none_or] at h
      obtain ⟨c, hc, hd⟩ := ih (c0 + 1) h
      refine ⟨c, hc, fun d j h1 h2 hj => ?_⟩
      by_cases hdc : d = c0
      · subst hdc
        have := List.find?_eq_none.mp hf j hj
        simpa using this
      · exact hd d j (by omega) h2 hj

/-- `NextPiece` in terms of the abstract state -/
theorem nextPiece_spec {t : Tracker} {size : Nat} {a : State} (h : Inv t size a) (own : Bitfield) (hown : size ≤ 8 * own.data.length) (w : PH) :
    (∃ i, NextPiece t own w = .ok ({ t with requests := addRequest t.requests w.ptr i }, i, true) ∧ IsRarest a size (bit own.data) w.key i) ∨
    (NextPiece t own w = .ok (t, 0, false) ∧ ¬ ∃ i, i < size ∧ bit own.data i = false ∧ w.key ∈ a i) := by
  obtain ⟨X, hX, hm⟩ := h.ex
  have hsc := scanBuckets_spec h own hown w X (t.buckets.drop 1) 1
    (by
      intro k ll hk
      rw [List.getElem?_drop] at hk
      have hlt := (List.getElem?_eq_some_iff.mp hk).1
      rw [hX.buckets] at hlt
      obtain ⟨ll', hb, il⟩ := hX.lists (1 + k) hlt
      rw [hb] at hk
      cases hk
      exact il)
    (by
      intro c hc x hx
      rw [List.length_drop, hX.buckets] at hc
      exact hX.mem_lt (by omega) hx)
  rw [List.length_drop, hX.buckets] at hsc
  have key : ∀ j, j < size → w.key ∈ a j → 1 ≤ (a j).length ∧ (a j).length ≤ 63 ∧ j ∈ X (a j).length := by
    intro j hj hk
    have := List.length_pos_of_mem hk
    exact ⟨by omega, h.le j, (hm j _ hj).mpr rfl⟩
  unfold NextPiece
  rw [hsc, Res.ok_bind]
  cases hf : ((List.range' 1 (64 - 1)).flatMap X).find? (wanted own a w) with
  | some i =>
    refine .inl ⟨i, rfl, ?_⟩
    have hwi := List.find?_some hf
    have hmem := List.mem_of_find?_eq_some hf
    obtain ⟨c, hc, hxc⟩ := List.mem_flatMap.mp hmem
    rw [List.mem_range'_1] at hc
    have hi := hX.mem_lt (by omega) hxc
    unfold wanted at hwi
    simp only [Bool.and_eq_true, Bool.not_eq_true', decide_eq_true_eq] at hwi
    refine ⟨hi, hwi.1, hwi.2, ?_⟩
    intro j hj hbj hkj
    obtain ⟨c', hc', hbefore⟩ := find_flatMap 1 63 hf
    have hci := (hm i c' hi).mp hc'
    obtain ⟨k1, k2, k3⟩ := key j hj hkj
    rcases Nat.lt_or_ge (a j).length (a i).length with hlt | hge
    · have := hbefore (a j).length j k1 (by omega) k3
      unfold wanted at this
      simp [hbj, hkj] at this
    · exact hge
  | none =>
    refine .inr ⟨rfl, ?_⟩
    rintro ⟨j, hj, hbj, hkj⟩
    obtain ⟨k1, k2, k3⟩ := key j hj hkj
    have := List.find?_eq_none.mp hf j (List.mem_flatMap.mpr ⟨(a j).length, by rw [List.mem_range'_1]; omega, k3⟩)
    unfold wanted at this
    simp [hbj, hkj] at this

end Verif.PieceTracker
