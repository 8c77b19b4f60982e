import Verif.Props.FileConcParts
/-
Property C74, continued: every mixture of parts can be read, so the parts of the files are all that is atomic.
-/
set_option autoImplicit false

namespace Verif.FileConc
open Verif.Files Verif.FS Verif.FileIO Verif.Layout Verif.Lts

/-- no lock is held -/
def Free (sh : Shared) : Prop := (∀ p, sh.readers p = 0) ∧ ∀ p, sh.writer p = false

/-- a goroutine reads one of its ranges in one go -/
theorem read_one {fio : FileIO} {s0 : St} {sh : Shared} {ths : List Th} (hr : Reach (Step fio false) s0 ⟨sh, ths⟩) (hq : Free sh)
    {files : List EntryBase} {cs : List Bytes} (hd : OnDisk sh.fs fio files cs) (j : Nat) (buf : Bytes) (k sk r off : Nat) (rest : List PieceLocation)
    (hj : ths[j]? = some ⟨false, buf, ⟨k, ⟨(sk : Int), (r : Int)⟩⟩ :: rest, off, .top⟩) (x : Nat) (e1 : startPos (Files.lens files) k + sk = x)
    (e0 : k < (Files.lens files).length) (e2 : x + r ≤ startPos (Files.lens files) (k + 1)) (hf : off + r ≤ buf.length) :
    Reach (Step fio false) s0 ⟨sh, ths.set j ⟨false, splice buf off (range cs.flatten x r), rest, off + r, .top⟩⟩ := by
  obtain ⟨hjl, -⟩ := List.getElem?_eq_some_iff.mp hj
  obtain ⟨e, c, g1, g2, g3, g4, g5, g6⟩ := hd.get k e0
  have hst := startPos_succ (cs.map List.length) k c.length (by rw [List.getElem?_map, g2]; rfl)
  rw [← hd.lens] at e1 e2
  have hrg : range cs.flatten x r = (c.drop sk).take r := by
    rw [← e1, range_flatten cs k c g2 sk r (by omega)]; rfl
  have hset : (fun q => if q = e.base.localPath then (if q = e.base.localPath then sh.readers q + 1 else sh.readers q) - 1 else
      (if q = e.base.localPath then sh.readers q + 1 else sh.readers q)) = sh.readers := by
    funext q; split <;> simp_all
  have r1 := hr.tail _ _ (.mk _ j _ _ _ hj (.rlock _ _ _ _ e rfl rfl ⟨by simp only; omega, by simp only; omega⟩ g1 g4 rfl (hq.2 _)))
  rcases Nat.eq_zero_or_pos r with h0 | h0
  · subst h0
    have r3 := r1.tail _ _ (.mk _ j _ _ _ (by simp only; rw [List.getElem?_set, if_pos rfl, if_pos hjl])
      (.release _ _ _ _ e 0 c (by simp) rfl g1 g3 (by simp) (by simp)))
    simp only [List.set_set, Shared.release, Shared.runlock, Shared.rlock, Bool.false_eq_true, if_false, Int.toNat_natCast] at r3
    rw [hset] at r3
    rw [hrg, List.take_zero, splice_nil]
    exact r3
  · have r2 := r1.tail _ _ (.mk _ j _ _ _ (by simp only; rw [List.getElem?_set, if_pos rfl, if_pos hjl])
      (.get _ _ _ _ e 0 r c rfl rfl g1 rfl g3 (by simp) h0 (by simp) (by simp; omega)))
    have r3 := r2.tail _ _ (.mk _ j _ _ _ (by simp only; rw [List.getElem?_set, if_pos rfl, if_pos (by rw [List.length_set]; exact hjl)])
      (.release _ _ _ _ e r c (by simp) rfl g1 g3 (by simp) (by simp)))
    simp only [List.set_set, Shared.release, Shared.runlock, Shared.rlock, Bool.false_eq_true, if_false, Int.toNat_natCast, Nat.add_zero] at r3
    rw [hset] at r3
    rw [hrg, ← overwrite_splice]
    exact r3

/-- a goroutine writes some of its ranges in one go -/
theorem write_run {fio : FileIO} {s0 : St} {files : List EntryBase} (hdup : (files.map EntryBase.localPath).Nodup) (j : Nat) (buf : Bytes)
    (rest : List PieceLocation) {x y : Nat} {ls : List PieceLocation} (hc : Consec (Files.lens files) x ls y) :
    ∀ {sh : Shared} {ths : List Th} (_ : Reach (Step fio false) s0 ⟨sh, ths⟩) (_ : Free sh) {cs : List Bytes} (_ : OnDisk sh.fs fio files cs) (off : Nat)
      (_ : ths[j]? = some ⟨true, buf, ls ++ rest, off, .top⟩) (_ : off + (y - x) ≤ buf.length),
    ∃ fs' cs', OnDisk fs' fio files cs' ∧ (ls = [] ∧ cs' = cs ∨ ls ≠ [] ∧ cs'.flatten = splice cs.flatten x (range buf off (y - x))) ∧
      Reach (Step fio false) s0 ⟨{ sh with fs := fs' }, ths.set j ⟨true, buf, rest, off + (y - x), .top⟩⟩ := by
  induction hc with
  | nil a =>
    intro sh ths hr hq cs hd off hj hf
    refine ⟨sh.fs, cs, hd, .inl ⟨rfl, rfl⟩, ?_⟩
    rw [show a - a = 0 by omega, Nat.add_zero]
    rw [List.nil_append] at hj
    have : ths.set j ⟨true, buf, rest, off, .top⟩ = ths := by
      apply List.ext_getElem?
      intro q
      rw [List.getElem?_set]
      split
      · rename_i hjq
        subst hjq
        rw [if_pos (List.getElem?_eq_some_iff.mp hj).1, hj]
      · rfl
    rw [this]; exact hr
  | cons a b k sk r tl e1 e0 e2 hrest ih =>
    intro sh ths hr hq cs hd off hj hf
    have hle := hrest.le
    obtain ⟨hjl, -⟩ := List.getElem?_eq_some_iff.mp hj
    obtain ⟨e, c, g1, g2, g3, g4, g5, g6⟩ := hd.get k e0
    have hst := startPos_succ (cs.map List.length) k c.length (by rw [List.getElem?_map, g2]; rfl)
    have e1' := e1
    have e2' := e2
    rw [← hd.lens] at e1' e2'
    have htot := startPos_le_total (cs.map List.length) (k + 1)
    have hcl : a + r ≤ cs.flatten.length := by rw [List.length_flatten]; unfold total at htot; omega
    have hbl : b ≤ cs.flatten.length := by
      have h1 := consec_total hrest
      rw [← hd.lens] at h1
      rw [List.length_flatten] at hcl ⊢
      unfold total at h1
      omega
    have hset : (fun q => if q = e.base.localPath then false else (if q = e.base.localPath then true else sh.writer q)) = sh.writer := by
      funext q; split <;> simp_all [hq.2]
    -- the first range
    have first : ∃ fs1 cs1, OnDisk fs1 fio files cs1 ∧ cs1.flatten = splice cs.flatten a (range buf off r) ∧
        Reach (Step fio false) s0 ⟨{ sh with fs := fs1 }, ths.set j ⟨true, buf, tl ++ rest, off + r, .top⟩⟩ := by
      rw [List.cons_append] at hj
      have r1 := hr.tail _ _ (.mk _ j _ _ _ hj (.announce _ _ _ _ e rfl rfl ⟨by simp only; omega, by simp only; omega⟩ g1 g4 rfl (hq.2 _)))
      have r2 := r1.tail _ _ (.mk _ j _ _ _ (by simp only; rw [List.getElem?_set, if_pos rfl, if_pos hjl])
        (.lock _ _ _ _ e rfl rfl g1 (hq.1 _)))
      rcases Nat.eq_zero_or_pos r with h0 | h0
      · subst h0
        have r4 := r2.tail _ _ (.mk _ j _ _ _ (by simp only; rw [List.getElem?_set, if_pos rfl, if_pos (by rw [List.length_set]; exact hjl)])
          (.release _ _ _ _ e 0 c (by simp) rfl g1 g3 (by simp) (by simp)))
        simp only [List.set_set, Shared.release, Shared.unlock, Shared.announce, if_true, Int.toNat_natCast] at r4
        rw [hset] at r4
        exact ⟨sh.fs, cs, hd, by unfold range; rw [List.take_zero, splice_nil], r4⟩
      · have r3 := r2.tail _ _ (.mk _ j _ _ _ (by simp only; rw [List.getElem?_set, if_pos rfl, if_pos (by rw [List.length_set]; exact hjl)])
          (.put _ _ _ _ e 0 r c rfl rfl g1 rfl g3 (by simp) h0 (by simp)))
        have r4 := r3.tail _ _ (.mk _ j _ _ _ (by simp only; rw [List.getElem?_set, if_pos rfl, if_pos (by simp only [List.length_set]; exact hjl)])
          (.release _ _ _ _ e r (writeAt c sk ((buf.drop off).take r)) (by simp) rfl g1 (by simp [FS.State.set]) (by simp) (by simp)))
        simp only [List.set_set, Shared.release, Shared.unlock, Shared.announce, if_true, Int.toNat_natCast, Nat.add_zero] at r4
        rw [hset] at r4
        have hrl : (range buf off r).length = r := range_length _ _ _ (by omega)
        rw [show (buf.drop off).take r = range buf off r from rfl, writeAt_splice _ _ _ (by omega)] at r4
        refine ⟨_, _, OnDisk.put hd hdup g5 g2 (splice_length c sk (range buf off r) (by omega)), ?_, r4⟩
        rw [flatten_set cs k c g2 sk _ (by omega), e1']
    obtain ⟨fs1, cs1, d1, f1, rr⟩ := first
    have hrl : (range buf off r).length = r := range_length _ _ _ (by omega)
    obtain ⟨fs2, cs2, d2, f2, rr2⟩ := ih rr hq d1 (off + r) (by rw [List.getElem?_set, if_pos rfl, if_pos hjl]) (by omega)
    rw [List.set_set, show off + r + (b - (a + r)) = off + (b - a) by omega] at rr2
    refine ⟨fs2, cs2, d2, .inr ⟨by simp, ?_⟩, rr2⟩
    rcases f2 with ⟨z1, rfl⟩ | ⟨-, f2⟩
    · subst z1
      rw [f1]
      cases hrest
      rw [show a + r - a = r by omega]
    · rw [f2, f1]
      have := splice_splice cs.flatten a (range buf off r) (range buf (off + r) (b - (a + r)))
        (by rw [hrl, range_length _ _ _ (by omega)]; omega)
      rw [hrl] at this
      rw [this, range_append]
      congr 2; omega

/-- the state of a schedule in which goroutine `j` has read the first `off` bytes of `x`, and nobody has written anything behind them -/
structure Stage (H : Bytes → Bytes) (hashes : Bytes) (pl : Nat) (files : List EntryBase) (ti : TorInfo) (fs : FS.State) (stream : Bytes)
    (calls : List Call) (i j : Nat) (buf x : Bytes) (off : Nat) (ls : List PieceLocation) (s : St) : Prop where
  reach : Reach (Step (openedAll ti) false) (init H ti fs calls) s
  free : Free s.sh
  disk : ∃ cs', OnDisk s.sh.fs (openedAll ti) files cs' ∧ cs'.flatten.length = stream.length ∧
    ∀ o, off ≤ o → o < (pieceOf stream pl i).length → cs'.flatten[i * pl + o]? = stream[i * pl + o]?
  rd : ∃ b, s.ths[j]? = some ⟨false, b, ls, off, .top⟩ ∧ b.length = buf.length ∧ SameOn 0 off b x ∧
    b.drop (pieceOf stream pl i).length = buf.drop (pieceOf stream pl i).length
  wr : ∀ (j' : Nat) d spare, calls[j']? = some (.write i d spare) → IsWrite H hashes ti.numPieces calls i d →
    ∃ off' mid, s.ths[j']? = some ⟨true, d ++ spare, mid ++ ls, off', .top⟩ ∧ Consec (Files.lens files) (i * pl + off') mid (i * pl + off)

/-- one more range is read, after one of the writes has come as far as this, or before anybody has written there -/
theorem Stage.next {H : Bytes → Bytes} {hashes : Bytes} {pl : Nat} {files : List EntryBase} {ti : TorInfo} {fs : FS.State} {stream : Bytes}
    {calls : List Call} {i j : Nat} {buf x : Bytes} {off : Nat} {k sk r : Nat} {rest : List PieceLocation} {s : St}
    (hd : (files.map EntryBase.localPath).Nodup) (hz : Sized H hashes ti.numPieces pl stream calls)
    (hcj : calls[j]? = some (.read i buf)) (hfit : (pieceOf stream pl i).length ≤ buf.length)
    (hx : Mixture H hashes ti.numPieces pl (Files.lens files) stream calls i x)
    (h : Stage H hashes pl files ti fs stream calls i j buf x off (⟨k, ⟨(sk : Int), (r : Int)⟩⟩ :: rest) s)
    (e1 : startPos (Files.lens files) k + sk = i * pl + off) (e0 : k < (Files.lens files).length)
    (e2 : i * pl + off + r ≤ startPos (Files.lens files) (k + 1)) (e3 : off + r ≤ (pieceOf stream pl i).length) :
    ∃ s', Stage H hashes pl files ti fs stream calls i j buf x (off + r) rest s' := by
  obtain ⟨reach, free, ⟨cs1, dk, dl, da⟩, ⟨b, rd1, rd2, rd3, rd4⟩, wr⟩ := h
  obtain ⟨hxl, hmix⟩ := hx
  obtain ⟨v, hv, hvx⟩ := hmix k
  have hplen : i * pl + off + r ≤ stream.length := by
    have htot := startPos_le_total (Files.lens files) (k + 1)
    rw [← dk.lens] at htot e2
    unfold total at htot
    rw [← List.length_flatten, dl] at htot
    omega
  -- the files when the range is read
  have before : ∃ fs2 cs2 ths2, Reach (Step (openedAll ti) false) (init H ti fs calls) ⟨{ s.sh with fs := fs2 }, ths2⟩ ∧
      OnDisk fs2 (openedAll ti) files cs2 ∧ cs2.flatten.length = stream.length ∧
      (∀ o, off + r ≤ o → o < (pieceOf stream pl i).length → cs2.flatten[i * pl + o]? = stream[i * pl + o]?) ∧
      (∀ o, off ≤ o → o < off + r → cs2.flatten[i * pl + o]? = x[o]?) ∧ ths2[j]? = s.ths[j]? ∧
      ∀ (j' : Nat) d spare, calls[j']? = some (.write i d spare) → IsWrite H hashes ti.numPieces calls i d →
        ∃ off' mid, ths2[j']? = some ⟨true, d ++ spare, mid ++ rest, off', .top⟩ ∧
          Consec (Files.lens files) (i * pl + off') mid (i * pl + (off + r)) := by
    have longer : ∀ {off' : Nat} {mid : List PieceLocation}, Consec (Files.lens files) (i * pl + off') mid (i * pl + off) →
        Consec (Files.lens files) (i * pl + off') (mid ++ [⟨k, ⟨(sk : Int), (r : Int)⟩⟩]) (i * pl + (off + r)) := by
      intro off' mid hc
      have := hc.snoc k sk r e1 e0 e2
      rwa [Nat.add_assoc] at this
    have wr' : ∀ (j' : Nat) d spare, calls[j']? = some (.write i d spare) → IsWrite H hashes ti.numPieces calls i d →
        ∃ off' mid, s.ths[j']? = some ⟨true, d ++ spare, mid ++ rest, off', .top⟩ ∧
          Consec (Files.lens files) (i * pl + off') mid (i * pl + (off + r)) := by
      intro j' d spare hc hw
      obtain ⟨off', mid, q1, q2⟩ := wr j' d spare hc hw
      exact ⟨off', mid ++ [⟨k, ⟨(sk : Int), (r : Int)⟩⟩], by simpa using q1, longer q2⟩
    rcases hv with rfl | hw
    · refine ⟨s.sh.fs, cs1, s.ths, reach, dk, dl, fun o o1 o2 => da o (by omega) o2, ?_, rfl, wr'⟩
      intro o o1 o2
      rw [hvx o (by omega) (by omega) (by omega), piece_byte _ _ _ _ (by omega)]
      exact da o o1 (by omega)
    · obtain ⟨spare, hmem⟩ := hw.2.2
      obtain ⟨jv, hjv⟩ := List.getElem?_of_mem hmem
      obtain ⟨off', mid, q1, q2⟩ := wr' jv v spare hjv hw
      have hvl := hz.write i v hw
      have hle := q2.le
      have hjj : jv ≠ j := by
        rintro rfl
        rw [hcj] at hjv; cases hjv
      obtain ⟨fs2, cs2, d2, f2, rr⟩ := write_run hd jv (v ++ spare) rest q2 reach free dk off' q1
        (by rw [List.length_append]; omega)
      rw [show off' + (i * pl + (off + r) - (i * pl + off')) = off + r by omega] at rr
      rw [show i * pl + (off + r) - (i * pl + off') = off + r - off' by omega] at f2
      have hrl : (range (v ++ spare) off' (off + r - off')).length = off + r - off' :=
        range_length _ _ _ (by rw [List.length_append]; omega)
      -- what is on disk now
      have hcs2 : cs2.flatten.length = stream.length ∧ (∀ p, i * pl + (off + r) ≤ p → cs2.flatten[p]? = cs1.flatten[p]?) ∧
          ∀ o, off ≤ o → o < off + r → cs2.flatten[i * pl + o]? = v[o]? := by
        rcases f2 with ⟨z1, rfl⟩ | ⟨-, f2⟩
        · rw [z1] at q2
          generalize hg1 : i * pl + off' = A at q2
          generalize hg2 : i * pl + (off + r) = B at q2
          cases q2
          have hoff : off' = off + r := by omega
          refine ⟨dl, fun _ _ => rfl, ?_⟩
          intro o o1 o2
          exfalso
          obtain ⟨off'', mid', q3, q4⟩ := wr jv v spare hjv hw
          rw [q1] at q3
          simp only [Option.some.injEq, Th.mk.injEq] at q3
          have := q4.le
          omega
        · rw [f2]
          have hb : i * pl + off' + (range (v ++ spare) off' (off + r - off')).length ≤ cs1.flatten.length := by
            rw [hrl, dl]; omega
          refine ⟨by rw [splice_length _ _ _ hb, dl], ?_, ?_⟩
          · intro p hp
            rw [getElem?_splice _ _ _ hb, hrl, if_neg (by omega), if_neg (by omega)]
          · intro o o1 o2
            obtain ⟨off'', mid', q3, q4⟩ := wr jv v spare hjv hw
            have h4 := q4.le
            rw [q1] at q3
            simp only [Option.some.injEq, Th.mk.injEq] at q3
            rw [getElem?_splice _ _ _ hb, hrl, if_neg (by omega), if_pos (by omega), getElem?_range, if_pos (by omega),
              List.getElem?_append_left (by omega)]
            congr 1; omega
      obtain ⟨c1, c2, c3⟩ := hcs2
      refine ⟨fs2, cs2, _, rr, d2, c1, ?_, ?_, ?_, ?_⟩
      · intro o o1 o2
        rw [c2 _ (by omega)]
        exact da o (by omega) o2
      · intro o o1 o2
        rw [c3 o o1 o2, hvx o (by omega) (by omega) (by omega)]
      · rw [List.getElem?_set, if_neg hjj]
      · intro j' d' spare' hc' hw'
        by_cases hjv' : jv = j'
        · subst hjv'
          rw [hjv] at hc'
          cases hc'
          refine ⟨off + r, [], ?_, .nil _⟩
          rw [List.getElem?_set, if_pos rfl, if_pos (List.getElem?_eq_some_iff.mp q1).1]
          rfl
        · rw [List.getElem?_set, if_neg hjv']
          exact wr' j' d' spare' hc' hw'
  obtain ⟨fs2, cs2, ths2, p1, p2, p3, p4, p5, p6, p7⟩ := before
  rw [rd1] at p6
  have free2 : Free { s.sh with fs := fs2 } := free
  have hrun := read_one p1 free2 p2 j b k sk r off rest p6 (i * pl + off) e1 e0 e2 (by omega)
  have hrl : (range cs2.flatten (i * pl + off) r).length = r := by
    apply range_length
    rw [p3]; omega
  refine ⟨_, hrun, free2, ⟨cs2, p2, p3, p4⟩, ⟨_, by simp only; rw [List.getElem?_set, if_pos rfl, if_pos (List.getElem?_eq_some_iff.mp p6).1], ?_, ?_, ?_⟩, ?_⟩
  · rw [splice_length _ _ _ (by omega)]; exact rd2
  · intro o o1 o2
    rw [getElem?_splice _ _ _ (by omega), hrl]
    split
    · rename_i hlt; exact rd3 o o1 hlt
    · rw [getElem?_range, if_pos (by omega), show i * pl + off + (o - off) = i * pl + o by omega]
      exact p5 o (by omega) o2
  · rw [← rd4]
    apply List.ext_getElem?
    intro o
    rw [List.getElem?_drop, List.getElem?_drop, getElem?_splice _ _ _ (by omega), hrl, if_neg (by omega), if_neg (by omega)]
  · intro j' d spare hc hw
    have hne : j ≠ j' := by
      rintro rfl
      rw [hcj] at hc; cases hc
    simp only
    rw [List.getElem?_set, if_neg hne]
    exact p7 j' d spare hc hw

/-- **C74**, what a read can deliver: exactly the mixtures.  For every accepted torrent, all calls (system calls do not fail), every piece `i` and every
call that reads it: `x` is what a successful ReadPiece can deliver iff `x` is put together, file by file, from the bytes of the beginning and those of
the writes with the right hash.  So the part of a piece in one file is the unit of atomicity, and nothing bigger is. -/
theorem C74_reads_iff (H : Bytes → Bytes) (pl : Nat) (hashes : Bytes) (files : List EntryBase) (ti : TorInfo) (h : Accepted pl hashes files ti)
    (hd : (files.map EntryBase.localPath).Nodup) (fs : FS.State) (cs : List Bytes) (hs : Stored fs files cs) (calls : List Call)
    (hz : Sized H hashes ti.numPieces pl cs.flatten calls) (i : Nat) (hi : i < ti.numPieces) (j : Nat) (buf : Bytes)
    (hcj : calls[j]? = some (.read i buf)) (x : Bytes) :
    (∃ s t, Reach (Step (openedAll ti) false) (init H ti fs calls) s ∧ s.ths[j]? = some t ∧ t.pc = .done (.ok x.length) ∧
      t.buf = x ++ buf.drop x.length) ↔
    Mixture H hashes ti.numPieces pl (Files.lens files) cs.flatten calls i x := by
  have hfit := hz.read i buf (List.mem_of_getElem? hcj) hi
  constructor
  · rintro ⟨s, t, hr, ht, hpc, hb⟩
    obtain ⟨x', e1, e2, e3⟩ := (C74_parts H pl hashes files ti h hd fs cs hs calls hz i hi s hr).1 j buf t _ hcj ht hpc
    rw [hb] at e1
    have : x = x' := (List.append_inj e1 e2.symm).1
    rw [this]; exact e3
  · intro hx
    obtain ⟨locs, hlk, hcon⟩ := consec_end h hs.1 i hi
    have start0 : Stage H hashes pl files ti fs cs.flatten calls i j buf x 0 locs (init H ti fs calls) := by
      refine ⟨.refl, ⟨fun _ => rfl, fun _ => rfl⟩, ⟨cs, h.onDisk hs, rfl, fun _ _ _ => rfl⟩, ⟨buf, ?_, rfl, fun o _ o2 => by omega, rfl⟩, ?_⟩
      · unfold init; simp only
        rw [List.getElem?_map, hcj]
        simp only [Option.map_some, start, startRead, hlk]
      · intro j' d spare hc hw
        refine ⟨0, [], ?_, .nil _⟩
        unfold init; simp only
        rw [List.getElem?_map, hc]
        simp only [Option.map_some, start, startWrite, hlk, h.hash i hi]
        rw [if_neg (by simp [hw.2.1])]
        rfl
    have all : ∀ {A B : Nat} {ls : List PieceLocation}, Consec (Files.lens files) A ls B → ∀ (off : Nat) (s : St), A = i * pl + off →
        B = i * pl + (pieceOf cs.flatten pl i).length → Stage H hashes pl files ti fs cs.flatten calls i j buf x off ls s →
        ∃ s', Stage H hashes pl files ti fs cs.flatten calls i j buf x (pieceOf cs.flatten pl i).length [] s' := by
      intro A B ls hc
      induction hc with
      | nil a =>
        intro off s ha hb st
        rw [show (pieceOf cs.flatten pl i).length = off by omega]
        exact ⟨s, st⟩
      | cons a b k sk r rest e1 e0 e2 hr ih =>
        intro off s ha hb st
        have := hr.le
        obtain ⟨s', st'⟩ := st.next hd hz hcj hfit hx (by omega) e0 (by omega) (by omega)
        exact ih (off + r) s' (by omega) hb st'
    obtain ⟨s, st⟩ := all hcon 0 _ rfl rfl start0
    obtain ⟨b, rd1, rd2, rd3, rd4⟩ := st.rd
    refine ⟨_, ⟨false, b, [], (pieceOf cs.flatten pl i).length, .done (.ok (pieceOf cs.flatten pl i).length)⟩,
      st.reach.tail _ _ (.mk _ j _ _ _ rd1 (.finish _ _ rfl rfl)), ?_, ?_, ?_⟩
    · simp only; rw [List.getElem?_set, if_pos rfl, if_pos (List.getElem?_eq_some_iff.mp rd1).1]
    · simp only; rw [hx.1]
    · simp only
      rw [hx.1, ← rd4]
      conv => lhs; rw [← List.take_append_drop (pieceOf cs.flatten pl i).length b]
      congr 1
      apply List.ext_getElem?
      intro o
      rcases Nat.lt_or_ge o (pieceOf cs.flatten pl i).length with hlt | hge
      · rw [List.getElem?_take_of_lt hlt]
        exact rd3 o (by omega) hlt
      · rw [List.getElem?_eq_none_iff.mpr (by rw [List.length_take]; omega), List.getElem?_eq_none_iff.mpr (by rw [hx.1]; exact hge)]

/-- **C74**, torn reads in general: for every piece that goes over the end of a file, at position `m`, and every write of it, there is a schedule in which
a read delivers the first `m` bytes of what was there and the rest of what is written.  This is neither of the two unless they agree on one of the sides. -/
theorem C74_torn (H : Bytes → Bytes) (pl : Nat) (hashes : Bytes) (files : List EntryBase) (ti : TorInfo) (h : Accepted pl hashes files ti)
    (hd : (files.map EntryBase.localPath).Nodup) (fs : FS.State) (cs : List Bytes) (hs : Stored fs files cs) (calls : List Call)
    (hz : Sized H hashes ti.numPieces pl cs.flatten calls) (i : Nat) (hi : i < ti.numPieces) (j : Nat) (buf : Bytes)
    (hcj : calls[j]? = some (.read i buf)) (d : Bytes) (hw : IsWrite H hashes ti.numPieces calls i d) (m kf : Nat)
    (hm : startPos (Files.lens files) kf = i * pl + m) (hmd : m ≤ d.length) :
    ∃ s t, Reach (Step (openedAll ti) false) (init H ti fs calls) s ∧ s.ths[j]? = some t ∧ t.pc = .done (.ok d.length) ∧
      t.buf = ((pieceOf cs.flatten pl i).take m ++ d.drop m) ++ buf.drop d.length := by
  have hdl := hz.write i d hw
  have hl : ((pieceOf cs.flatten pl i).take m ++ d.drop m).length = d.length := by
    rw [List.length_append, List.length_take, List.length_drop]; omega
  have hx : Mixture H hashes ti.numPieces pl (Files.lens files) cs.flatten calls i ((pieceOf cs.flatten pl i).take m ++ d.drop m) := by
    refine ⟨by omega, ?_⟩
    intro k
    rcases Nat.lt_or_ge k kf with hk | hk
    · refine ⟨_, .inl rfl, ?_⟩
      intro o o1 o2 o3
      have := startPos_mono (Files.lens files) (show k + 1 ≤ kf by omega)
      rw [List.getElem?_append_left (by rw [List.length_take]; omega), List.getElem?_take_of_lt (by omega)]
    · refine ⟨d, .inr hw, ?_⟩
      intro o o1 o2 o3
      have := startPos_mono (Files.lens files) hk
      rw [List.getElem?_append_right (by rw [List.length_take]; omega), List.getElem?_drop, List.length_take]
      congr 1; omega
  have := (C74_reads_iff H pl hashes files ti h hd fs cs hs calls hz i hi j buf hcj _).mpr hx
  rw [hl] at this
  exact this

/-- an instance: piece 1 has its first byte in file `a` and the others in file `b`; it is zero on disk and written with 5, 6, 7, 8, and
read as 0, 6, 7, 8 -/
example : ∃ ti s t, Accepted 4 exHashes exFiles ti ∧ Reach (Step (openedAll ti) false) (init exH ti exDisk exCalls) s ∧ s.ths[3]? = some t ∧
    t.pc = .done (.ok 4) ∧ t.buf = [0, 6, 7, 8] := by
  have hacc : Accepted 4 exHashes exFiles _ := ⟨by decide, exFiles_nonneg, ascii "t", rfl⟩
  obtain ⟨s, t, h1, h2, h3, h4⟩ := C74_torn exH 4 exHashes exFiles _ hacc (by decide +kernel) exDisk exContents exStored exCalls exSized 1
    (by decide) 3 (List.replicate 4 0) rfl [5, 6, 7, 8] ⟨by decide, by decide +kernel, [], by simp [exCalls]⟩ 1 1 (by decide) (by decide)
  exact ⟨_, s, t, hacc, h1, h2, h3, by rw [h4]; decide⟩

/-- the mixture is neither of the two if they differ on both sides -/
theorem torn_differs (x d : Bytes) (m : Nat) (h1 : x.take m ≠ d.take m) (h2 : x.drop m ≠ d.drop m) :
    x.take m ++ d.drop m ≠ x ∧ x.take m ++ d.drop m ≠ d := by
  constructor
  · intro he
    apply h2
    conv at he => rhs; rw [← List.take_append_drop m x]
    exact (List.append_cancel_left he).symm
  · intro he
    apply h1
    conv at he => rhs; rw [← List.take_append_drop m d]
    exact List.append_cancel_right he

end Verif.FileConc
