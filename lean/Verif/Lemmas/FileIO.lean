import Verif.Model.FileIO
import Verif.Lemmas.FS
import Verif.Lemmas.LayoutContent
/-
Helper lemmas: ReadPiece and WritePiece in terms of the concatenated contents.
-/
set_option autoImplicit false

namespace Verif.FileIO
open Verif.Files Verif.FS Verif.Layout

/-- replace the bytes at position `a` -/
def splice (x : Bytes) (a : Nat) (d : Bytes) : Bytes := x.take a ++ d ++ x.drop (a + d.length)

theorem splice_length (x : Bytes) (a : Nat) (d : Bytes) (h : a + d.length ≤ x.length) : (splice x a d).length = x.length := by
  unfold splice; simp; omega

theorem splice_nil (x : Bytes) (a : Nat) : splice x a [] = x := by
  unfold splice; simp

theorem range_length (bs : Bytes) (a n : Nat) (h : a + n ≤ bs.length) : (range bs a n).length = n := by
  unfold range; rw [List.length_take, List.length_drop]; omega

theorem getElem?_splice (x : Bytes) (a : Nat) (d : Bytes) (h : a + d.length ≤ x.length) (i : Nat) :
    (splice x a d)[i]? = if i < a then x[i]? else if i < a + d.length then d[i - a]? else x[i]? := by
  unfold splice
  by_cases h1 : i < a
  · rw [if_pos h1, List.append_assoc, List.getElem?_append_left (by rw [List.length_take]; omega), List.getElem?_take, if_pos h1]
  · rw [if_neg h1, List.append_assoc, List.getElem?_append_right (by rw [List.length_take]; omega)]
    have e : (x.take a).length = a := by rw [List.length_take]; omega
    rw [e]
    by_cases h2 : i < a + d.length
    · rw [if_pos h2, List.getElem?_append_left (by omega)]
    · rw [if_neg h2, List.getElem?_append_right (by omega), List.getElem?_drop]
      congr 1; omega

theorem getElem?_range (x : Bytes) (a n i : Nat) : (range x a n)[i]? = if i < n then x[a + i]? else none := by
  unfold range
  rw [List.getElem?_take]
  split
  · rw [List.getElem?_drop]
  · rfl

theorem splice_splice (x : Bytes) (a : Nat) (d1 d2 : Bytes) (h : a + d1.length + d2.length ≤ x.length) :
    splice (splice x a d1) (a + d1.length) d2 = splice x a (d1 ++ d2) := by
  apply List.ext_getElem?
  intro i
  rw [getElem?_splice _ _ _ (by rw [splice_length x a d1 (by omega)]; omega), getElem?_splice x a d1 (by omega),
    getElem?_splice x a (d1 ++ d2) (by rw [List.length_append]; omega), List.length_append]
  by_cases h1 : i < a
  · rw [if_pos (by omega), if_pos h1, if_pos h1]
  · by_cases h2 : i < a + d1.length
    · simp only [h1, h2, if_true, if_false]
      rw [if_pos (by omega), List.getElem?_append_left (by omega)]
    · by_cases h3 : i < a + d1.length + d2.length
      · simp only [h1, h2, h3, if_true, if_false]
        rw [if_pos (by omega), List.getElem?_append_right (by omega)]
        congr 1; omega
      · simp only [h1, h2, h3, if_false]
        rw [if_neg (by omega)]

theorem writeAt_splice (c : Bytes) (s : Nat) (d : Bytes) (h : s + d.length ≤ c.length) : writeAt c s d = splice c s d := by
  unfold writeAt
  split
  · rename_i e; rw [e, splice_nil]
  · unfold splice
    rw [show s - c.length = 0 by omega]
    simp

theorem overwrite_splice (c : Bytes) (s : Nat) (d : Bytes) : overwrite c s d = splice c s d := rfl

/-- overwriting inside of one part is overwriting of the concatenation -/
theorem flatten_set (cs : List Bytes) (k : Nat) (c : Bytes) (h : cs[k]? = some c) (s : Nat) (d : Bytes)
    (hb : s + d.length ≤ c.length) :
    (cs.set k (splice c s d)).flatten = splice cs.flatten (startPos (cs.map List.length) k + s) d := by
  induction cs generalizing k with
  | nil => simp at h
  | cons x xs ih =>
    cases k with
    | zero =>
      simp only [List.getElem?_cons_zero, Option.some.injEq] at h
      subst h
      simp only [List.set_cons_zero, List.flatten_cons, startPos, List.take_zero, List.sum_nil, Nat.zero_add]
      unfold splice
      rw [List.take_append_of_le_length (by omega), List.drop_append_of_le_length (by omega)]
      simp
    | succ k =>
      simp only [List.getElem?_cons_succ] at h
      have := ih k h
      simp only [List.set_cons_succ, List.flatten_cons]
      rw [this]
      unfold startPos splice
      simp only [List.map_cons, List.take_succ_cons, List.sum_cons]
      rw [show x.length + (List.take k (List.map List.length xs)).sum + s =
        x.length + ((List.take k (List.map List.length xs)).sum + s) by omega]
      rw [Nat.add_assoc x.length, List.take_length_add_append, List.drop_length_add_append]
      simp

theorem set_lens (cs : List Bytes) (k : Nat) (c d : Bytes) (h : cs[k]? = some c) (hd : d.length = c.length) :
    (cs.set k d).map List.length = cs.map List.length := by
  apply List.ext_getElem?
  intro i
  rw [List.getElem?_map, List.getElem?_map, List.getElem?_set]
  by_cases hi : k = i
  · subst hi
    rw [if_pos rfl, if_pos (List.getElem?_eq_some_iff.mp h).1, h]
    simp [hd]
  · rw [if_neg hi]

/-- the files of the torrent are on disk with contents `cs`, and open -/
structure OnDisk (fs : State) (fio : FileIO) (files : List EntryBase) (cs : List Bytes) : Prop where
  flist : ∀ k : Nat, (fio.torInfo.flist[k]?).map Entry.base = files[k]?
  lens : cs.map List.length = lens files
  disk : ∀ (k : Nat) (f : EntryBase) (c : Bytes), files[k]? = some f → cs[k]? = some c →
    fs f.localPath = some c ∧ f.localPath ∈ fio.opened

theorem OnDisk.get {fs : State} {fio : FileIO} {files : List EntryBase} {cs : List Bytes} (h : OnDisk fs fio files cs)
    (k : Nat) (hk : k < (Files.lens files).length) :
    ∃ e c, fio.torInfo.flist[k]? = some e ∧ cs[k]? = some c ∧ fs e.base.localPath = some c ∧
      e.base.localPath ∈ fio.opened ∧ files[k]? = some e.base ∧ c.length = e.base.length.toNat := by
  have hk' : k < files.length := by simpa [Files.lens] using hk
  have hf : files[k]? = some files[k] := List.getElem?_eq_getElem hk'
  have hlen : cs.length = files.length := by
    have := congrArg List.length h.lens
    simpa [Files.lens] using this
  have hc : cs[k]? = some cs[k] := List.getElem?_eq_getElem (by omega)
  have hfl := h.flist k
  rw [hf] at hfl
  cases he : fio.torInfo.flist[k]? with
  | none => rw [he] at hfl; cases hfl
  | some e =>
    rw [he] at hfl
    simp only [Option.map_some, Option.some.injEq] at hfl
    obtain ⟨h1, h2⟩ := h.disk k _ _ hf hc
    refine ⟨e, cs[k], rfl, hc, ?_, ?_, ?_, ?_⟩
    · rw [hfl]; exact h1
    · rw [hfl]; exact h2
    · rw [hf, hfl]
    · have := congrArg (fun l => l[k]?) h.lens
      simp only [Files.lens, List.getElem?_map, hc, hf] at this
      simp only [Option.map_some, Option.some.injEq] at this
      rw [this, hfl]

theorem readLoop_eq {fs : State} {fio : FileIO} {files : List EntryBase} {cs : List Bytes} (h : OnDisk fs fio files cs)
    {a b : Nat} {locs : List PieceLocation} (hc : Consec (cs.map List.length) a locs b) (off : Nat) (buf : Bytes)
    (hbuf : off + (b - a) ≤ buf.length) :
    readLoop fs fio locs off buf = .ok (off + (b - a), splice buf off (range cs.flatten a (b - a))) := by
  induction hc generalizing off buf with
  | nil a => rw [readLoop]; simp [range, splice_nil]
  | cons a b k s r rest e1 e0 e2 hr ih =>
    have hle := hr.le
    obtain ⟨e, c, h1, h2, h3, h4, h5, h6⟩ := h.get k (by rw [← h.lens]; exact e0)
    have hs := startPos_succ (cs.map List.length) k c.length (by rw [List.getElem?_map, h2]; rfl)
    have hrl : (range c s r).length = r := range_length c s r (by omega)
    rw [readLoop, h1]
    simp only [Int.toNat_natCast]
    rw [if_neg (by omega), if_pos h4, h3]
    simp only
    rw [if_neg (by omega), if_neg (by omega), show (c.drop s).take r = range c s r from rfl, overwrite_splice]
    rw [ih _ _ (by rw [splice_length _ _ _ (by omega)]; omega)]
    have hrange : range c s r = range cs.flatten a r := by
      rw [← range_flatten cs k c h2 s r (by omega), e1]
    have hflen : b ≤ cs.flatten.length := by
      rcases Nat.lt_or_ge a b with hlt | hge
      · -- the last location ends inside of the stream
        clear ih hrange hrl hs h1 h2 h3 h4 h5 h6 hbuf
        have : ∀ {x y l}, Consec (cs.map List.length) x l y → x ≤ cs.flatten.length → y ≤ cs.flatten.length := by
          intro x y l hh
          induction hh with
          | nil => exact id
          | cons x y k s r rest e1 e0 e2 _ ih =>
            intro _
            refine ih ?_
            have := startPos_le_total (cs.map List.length) (k + 1)
            unfold total at this
            rw [List.length_flatten]; omega
        refine this hr ?_
        have := startPos_le_total (cs.map List.length) (k + 1)
        unfold total at this
        rw [List.length_flatten]; omega
      · have := startPos_le_total (cs.map List.length) (k + 1)
        unfold total at this
        rw [List.length_flatten]; omega
    have hr2 : (range cs.flatten (a + r) (b - (a + r))).length = b - (a + r) := range_length _ _ _ (by omega)
    have := splice_splice buf off (range c s r) (range cs.flatten (a + r) (b - (a + r))) (by omega)
    rw [hrl] at this
    rw [this, hrange, range_append, show r + (b - (a + r)) = b - a by omega]
    congr 2
    omega

theorem writeLoop_eq {fs : State} {fio : FileIO} {files : List EntryBase} {cs : List Bytes} (h : OnDisk fs fio files cs)
    (hd : (files.map EntryBase.localPath).Nodup) (full : Bytes)
    {a b : Nat} {locs : List PieceLocation} (hc : Consec (cs.map List.length) a locs b) (off : Nat)
    (hfull : off + (b - a) ≤ full.length) :
    ∃ fs' cs', writeLoop fio full locs off fs = (fs', .ok (off + (b - a))) ∧ OnDisk fs' fio files cs' ∧
      cs'.flatten = splice cs.flatten a (range full off (b - a)) ∧
      ∀ p, p ∉ files.map EntryBase.localPath → fs' p = fs p := by
  generalize hls : cs.map List.length = ls at hc
  induction hc generalizing off fs cs with
  | nil a => exact ⟨fs, cs, by rw [writeLoop]; simp, h, by simp [range, splice_nil], fun _ _ => rfl⟩
  | cons a b k s r rest e1 e0 e2 hr ih =>
    have hle := hr.le
    obtain ⟨e, c, h1, h2, h3, h4, h5, h6⟩ := h.get k (by rw [← h.lens, hls]; exact e0)
    have hs := startPos_succ ls k c.length (by rw [← hls, List.getElem?_map, h2]; rfl)
    have hrl : (range full off r).length = r := range_length full off r (by omega)
    have hsl : (splice c s (range full off r)).length = c.length := splice_length _ _ _ (by omega)
    have hset : (cs.set k (splice c s (range full off r))).map List.length = cs.map List.length :=
      set_lens cs k c _ h2 hsl
    have hdisk : OnDisk (fs.set e.base.localPath (splice c s (range full off r))) fio files
        (cs.set k (splice c s (range full off r))) := by
      refine ⟨h.flist, by rw [hset]; exact h.lens, ?_⟩
      intro k' f' c' hf' hc'
      rw [List.getElem?_set] at hc'
      by_cases hkk : k = k'
      · subst hkk
        rw [if_pos rfl, if_pos (List.getElem?_eq_some_iff.mp h2).1] at hc'
        cases hc'
        rw [h5] at hf'; cases hf'
        exact ⟨by simp, h4⟩
      · rw [if_neg hkk] at hc'
        obtain ⟨g1, g2⟩ := h.disk k' f' c' hf' hc'
        refine ⟨?_, g2⟩
        unfold State.set
        rw [if_neg, g1]
        intro heq
        apply hkk
        have hk1 : k < (files.map EntryBase.localPath).length := by
          rw [List.length_map]; exact (List.getElem?_eq_some_iff.mp h5).1
        have q1 : (files.map EntryBase.localPath)[k]? = some e.base.localPath := by rw [List.getElem?_map, h5]; rfl
        have q2 : (files.map EntryBase.localPath)[k']? = some e.base.localPath := by
          rw [List.getElem?_map, hf', ← heq]; rfl
        exact (List.getElem?_inj hk1 hd).mp (q1.trans q2.symm)
    obtain ⟨fs', cs', w1, w2, w3, w4⟩ := ih hdisk (off + r) (by omega) (by rw [hset, hls])
    refine ⟨fs', cs', ?_, w2, ?_, ?_⟩
    · rw [writeLoop, h1]
      simp only [Int.toNat_natCast]
      rw [if_neg (by omega), if_pos h4, h3]
      simp only
      rw [if_neg (by omega), show (full.drop off).take r = range full off r from rfl, writeAt_splice _ _ _ (by omega), w1]
      congr 2; omega
    · rw [w3, flatten_set cs k c h2 s _ (by omega), hls, e1]
      have hflen : b ≤ cs.flatten.length := by
        have : ∀ {x y l}, Consec ls x l y → x ≤ cs.flatten.length → y ≤ cs.flatten.length := by
          intro x y l hh
          induction hh with
          | nil => exact id
          | cons x y k s r rest e1 e0 e2 _ ih =>
            intro _
            refine ih ?_
            have := startPos_le_total ls (k + 1)
            unfold total at this
            rw [List.length_flatten, hls]; omega
        refine this hr ?_
        have := startPos_le_total ls (k + 1)
        unfold total at this
        rw [List.length_flatten, hls]; omega
      have hr2 : (range full (off + r) (b - (a + r))).length = b - (a + r) := range_length _ _ _ (by omega)
      have := splice_splice cs.flatten a (range full off r) (range full (off + r) (b - (a + r))) (by omega)
      rw [hrl] at this
      rw [this, range_append, show r + (b - (a + r)) = b - a by omega]
    · intro p hp
      rw [w4 p hp]
      unfold State.set
      rw [if_neg]
      intro heq
      apply hp
      rw [heq]
      exact List.mem_map.mpr ⟨_, List.mem_of_getElem? h5, rfl⟩

theorem pieceOf_length (x : Bytes) (pl i : Nat) : (pieceOf x pl i).length = min pl (x.length - i * pl) := by
  unfold pieceOf; rw [List.length_take, List.length_drop]

theorem pieceOf_splice_same (x : Bytes) (pl i : Nat) (d : Bytes) (h : d.length = (pieceOf x pl i).length)
    (hi : i * pl ≤ x.length) : pieceOf (splice x (i * pl) d) pl i = d := by
  rw [pieceOf_length] at h
  unfold pieceOf splice
  rw [List.append_assoc, List.drop_append_of_le_length (by rw [List.length_take]; omega)]
  rw [List.drop_eq_nil_of_le (by rw [List.length_take]; omega), List.nil_append]
  rcases Nat.lt_or_ge d.length pl with hlt | hge
  · rw [List.drop_eq_nil_of_le (by omega), List.append_nil, List.take_of_length_le (by omega)]
  · rw [List.take_append_of_le_length hge, List.take_of_length_le (by omega)]

theorem pieceOf_splice_other (x : Bytes) (pl i j : Nat) (d : Bytes) (h : d.length = (pieceOf x pl i).length)
    (hi : i * pl ≤ x.length) (hij : i ≠ j) : pieceOf (splice x (i * pl) d) pl j = pieceOf x pl j := by
  rw [pieceOf_length] at h
  apply List.ext_getElem?
  intro n
  have e : ∀ y : Bytes, (pieceOf y pl j)[n]? = if n < pl then y[j * pl + n]? else none := by
    intro y; exact getElem?_range y (j * pl) pl n
  rw [e, e]
  split
  · rename_i hn
    rw [getElem?_splice _ _ _ (by omega)]
    rcases Nat.lt_or_gt_of_ne hij with hlt | hgt
    · have : (i + 1) * pl ≤ j * pl := Nat.mul_le_mul_right _ hlt
      rw [Nat.add_mul] at this
      rw [if_neg (by omega), if_neg (by omega)]
    · have : (j + 1) * pl ≤ i * pl := Nat.mul_le_mul_right _ hgt
      rw [Nat.add_mul] at this
      rw [if_pos (by omega)]
  · rfl

/-- `WritePiece` with too few bytes: a panic after the parts that the bytes suffice for -/
theorem writeLoop_short {fs : State} {fio : FileIO} {files : List EntryBase} {cs : List Bytes} (h : OnDisk fs fio files cs)
    (hd : (files.map EntryBase.localPath).Nodup) (full : Bytes)
    {a b : Nat} {locs : List PieceLocation} (hc : Consec (cs.map List.length) a locs b) (off : Nat)
    (hoff : off ≤ full.length) (hfull : full.length < off + (b - a)) :
    ∃ fs' cs' m, writeLoop fio full locs off fs = (fs', .panic) ∧ OnDisk fs' fio files cs' ∧ off + m ≤ full.length ∧
      cs'.flatten = splice cs.flatten a (range full off m) ∧
      ∀ p, p ∉ files.map EntryBase.localPath → fs' p = fs p := by
  generalize hls : cs.map List.length = ls at hc
  induction hc generalizing off fs cs with
  | nil a => omega
  | cons a b k s r rest e1 e0 e2 hr ih =>
    have hle := hr.le
    by_cases hlt : full.length < off + r
    · refine ⟨fs, cs, 0, ?_, h, by omega, by simp [range, splice_nil], fun _ _ => rfl⟩
      rw [writeLoop, if_pos (by simp only; omega)]
    obtain ⟨e, c, h1, h2, h3, h4, h5, h6⟩ := h.get k (by rw [← h.lens, hls]; exact e0)
    have hs := startPos_succ ls k c.length (by rw [← hls, List.getElem?_map, h2]; rfl)
    have hrl : (range full off r).length = r := range_length full off r (by omega)
    have hsl : (splice c s (range full off r)).length = c.length := splice_length _ _ _ (by omega)
    have hset : (cs.set k (splice c s (range full off r))).map List.length = cs.map List.length :=
      set_lens cs k c _ h2 hsl
    have hdisk : OnDisk (fs.set e.base.localPath (splice c s (range full off r))) fio files
        (cs.set k (splice c s (range full off r))) := by
      refine ⟨h.flist, by rw [hset]; exact h.lens, ?_⟩
      intro k' f' c' hf' hc'
      rw [List.getElem?_set] at hc'
      by_cases hkk : k = k'
      · subst hkk
        rw [if_pos rfl, if_pos (List.getElem?_eq_some_iff.mp h2).1] at hc'
        cases hc'
        rw [h5] at hf'; cases hf'
        exact ⟨by simp, h4⟩
      · rw [if_neg hkk] at hc'
        obtain ⟨g1, g2⟩ := h.disk k' f' c' hf' hc'
        refine ⟨?_, g2⟩
        unfold State.set
        rw [if_neg, g1]
        intro heq
        apply hkk
        have hk1 : k < (files.map EntryBase.localPath).length := by
          rw [List.length_map]; exact (List.getElem?_eq_some_iff.mp h5).1
        have q1 : (files.map EntryBase.localPath)[k]? = some e.base.localPath := by rw [List.getElem?_map, h5]; rfl
        have q2 : (files.map EntryBase.localPath)[k']? = some e.base.localPath := by
          rw [List.getElem?_map, hf', ← heq]; rfl
        exact (List.getElem?_inj hk1 hd).mp (q1.trans q2.symm)
    obtain ⟨fs', cs', m, w1, w2, w5, w3, w4⟩ := ih hdisk (off + r) (by omega) (by omega) (by rw [hset, hls])
    refine ⟨fs', cs', r + m, ?_, w2, by omega, ?_, ?_⟩
    · rw [writeLoop, h1]
      simp only [Int.toNat_natCast]
      rw [if_neg (by omega), if_pos h4, h3]
      simp only
      rw [if_neg (by omega), show (full.drop off).take r = range full off r from rfl, writeAt_splice _ _ _ (by omega), w1]
    · rw [w3, flatten_set cs k c h2 s _ (by omega), hls, e1]
      have hr2 : (range full (off + r) m).length = m := range_length _ _ _ (by omega)
      have hflen : b ≤ cs.flatten.length := by
        have : ∀ {x y l}, Consec ls x l y → x ≤ cs.flatten.length → y ≤ cs.flatten.length := by
          intro x y l hh
          induction hh with
          | nil => exact id
          | cons x y k s r rest e1 e0 e2 _ ih =>
            intro _
            refine ih ?_
            have := startPos_le_total ls (k + 1)
            unfold total at this
            rw [List.length_flatten, hls]; omega
        refine this hr ?_
        have := startPos_le_total ls (k + 1)
        unfold total at this
        rw [List.length_flatten, hls]; omega
      have := splice_splice cs.flatten a (range full off r) (range full (off + r) m) (by omega)
      rw [hrl] at this
      rw [this, range_append]
    · intro p hp
      rw [w4 p hp]
      unfold State.set
      rw [if_neg]
      intro heq
      apply hp
      rw [heq]
      exact List.mem_map.mpr ⟨_, List.mem_of_getElem? h5, rfl⟩

theorem pieceOf_splice_head (x : Bytes) (pl i : Nat) (d : Bytes) (h : d.length ≤ (pieceOf x pl i).length)
    (hi : i * pl ≤ x.length) : pieceOf (splice x (i * pl) d) pl i = d ++ (pieceOf x pl i).drop d.length := by
  rw [pieceOf_length] at h
  unfold pieceOf splice
  rw [List.append_assoc, List.drop_append_of_le_length (by rw [List.length_take]; omega)]
  rw [List.drop_eq_nil_of_le (by rw [List.length_take]; omega), List.nil_append, List.take_append, List.take_of_length_le (by omega),
    List.drop_take, List.drop_drop]

theorem pieceOf_splice_away (x : Bytes) (pl i j : Nat) (d : Bytes) (h : d.length ≤ (pieceOf x pl i).length)
    (hi : i * pl ≤ x.length) (hij : i ≠ j) : pieceOf (splice x (i * pl) d) pl j = pieceOf x pl j := by
  rw [pieceOf_length] at h
  apply List.ext_getElem?
  intro n
  have e : ∀ y : Bytes, (pieceOf y pl j)[n]? = if n < pl then y[j * pl + n]? else none := by
    intro y; exact getElem?_range y (j * pl) pl n
  rw [e, e]
  split
  · rename_i hn
    rw [getElem?_splice _ _ _ (by omega)]
    rcases Nat.lt_or_gt_of_ne hij with hlt | hgt
    · have : (i + 1) * pl ≤ j * pl := Nat.mul_le_mul_right _ hlt
      rw [Nat.add_mul] at this
      rw [if_neg (by omega), if_neg (by omega)]
    · have : (j + 1) * pl ≤ i * pl := Nat.mul_le_mul_right _ hgt
      rw [Nat.add_mul] at this
      rw [if_pos (by omega)]
  · rfl

end Verif.FileIO
