import Verif.Props.FileConcWhole
/-
Property C74, continued: a piece of several files is read and written file by file, and each of these parts as a whole.
-/
set_option autoImplicit false

namespace Verif.FileConc
open Verif.Files Verif.FS Verif.FileIO Verif.Layout Verif.Lts

/-- two byte strings agree on the positions `lo ≤ o < hi` -/
def SameOn (lo hi : Nat) (x y : Bytes) : Prop := ∀ o, lo ≤ o → o < hi → x[o]? = y[o]?

/-- `lo ≤ o < hi` are the positions of the piece (which begins at `a` and has `n` bytes) that belong to file `kf` -/
structure Region (lns : List Nat) (a n kf lo hi : Nat) : Prop where
  ne : lo < hi
  start : startPos lns kf ≤ a + lo
  stop : a + hi ≤ startPos lns (kf + 1)
  fits : hi ≤ n
  all : ∀ o, o < n → startPos lns kf ≤ a + o → a + o < startPos lns (kf + 1) → lo ≤ o ∧ o < hi

theorem consec_cover {ls : List Nat} {a b : Nat} {locs : List PieceLocation} (h : Consec ls a locs b) (y : Nat) (h1 : a ≤ y) (h2 : y < b) :
    ∃ l ∈ locs, startPos ls l.fidx ≤ y ∧ y < startPos ls (l.fidx + 1) := by
  induction h with
  | nil => omega
  | cons a b k s r rest e1 e0 e2 hr ih =>
    rcases Nat.lt_or_ge y (a + r) with hy | hy
    · exact ⟨_, List.mem_cons_self .., by simp only; omega, by simp only; omega⟩
    · obtain ⟨l, hl, h⟩ := ih hy h2
      exact ⟨l, List.mem_cons_of_mem _ hl, h⟩

theorem startPos_file (ls : List Nat) (j k x : Nat) (h1 : startPos ls j ≤ x) (h2 : x < startPos ls (j + 1)) (h3 : startPos ls k ≤ x)
    (h4 : x < startPos ls (k + 1)) : j = k := by
  rcases Nat.lt_trichotomy j k with h | h | h
  · have := startPos_mono ls (show j + 1 ≤ k by omega); omega
  · exact h
  · have := startPos_mono ls (show k + 1 ≤ j by omega); omega

/-- the ranges of a piece are not cut inside of a file -/
theorem no_cut {lns : List Nat} {a b x : Nat} {d r : List PieceLocation} (hd : Consec lns a d x) (hr : Consec lns x r b)
    (ho : ((d ++ r).map PieceLocation.fidx).Pairwise (· < ·)) (kf : Nat) (h1 : startPos lns kf < x) (h2 : x < startPos lns (kf + 1))
    (h3 : a < x) (h4 : x < b) : False := by
  obtain ⟨l1, m1, c1, c2⟩ := consec_cover hd (x - 1) (by omega) (by omega)
  obtain ⟨l2, m2, c3, c4⟩ := consec_cover hr x (Nat.le_refl _) h4
  have e1 := startPos_file lns l1.fidx kf (x - 1) c1 c2 (by omega) (by omega)
  have e2 := startPos_file lns l2.fidx kf x c3 c4 (by omega) h2
  rw [List.map_append, List.pairwise_append] at ho
  have := ho.2.2 l1.fidx (List.mem_map.mpr ⟨l1, m1, rfl⟩) l2.fidx (List.mem_map.mpr ⟨l2, m2, rfl⟩)
  omega

/-- a goroutine works on the ranges `locs` of the piece -/
def Track (lns : List Nat) (a : Nat) (locs : List PieceLocation) (t : Th) : Prop := ∃ dn, locs = dn ++ t.ls ∧ Consec lns a dn (a + t.off)

theorem TStep.track {fio : FileIO} {faulty : Bool} {lns : List Nat} {a n : Nat} {locs : List PieceLocation} {s s' : Shared} {t t' : Th}
    (hp : Pos lns a n t) (ht : Track lns a locs t) (h : TStep fio faulty s t s' t') : Track lns a locs t' := by
  cases h with
  | release l rest e k c hpc hl he hc hs0 hk =>
    obtain ⟨dn, h1, h2⟩ := ht
    refine ⟨dn ++ [l], by rw [h1, hl]; simp, ?_⟩
    have hcon := hp.consec
    rw [hl] at hcon
    generalize hx : a + t.off = x at hcon h2
    generalize a + n = y at hcon
    cases hcon with
    | cons _ _ k sk r _ e1 e0 e2 hr =>
      simp only [Int.toNat_natCast]
      rw [← Nat.add_assoc, hx]
      exact h2.snoc k sk r e1 e0 e2
  | finish => exact ht
  | slice => exact ht
  | noEntry => exact ht
  | noPath => exact ht
  | rlock => exact ht
  | announce => exact ht
  | lock => exact ht
  | get => exact ht
  | put => exact ht
  | eof => exact ht
  | negative => exact ht
  | fail => exact ht

theorem Pos.head {lns : List Nat} {a n : Nat} {t : Th} (hp : Pos lns a n t) {l : PieceLocation} {rest : List PieceLocation} (hl : t.ls = l :: rest) :
    startPos lns l.fidx ≤ a + t.off ∧ a + t.off + l.loc.readAmnt.toNat ≤ startPos lns (l.fidx + 1) ∧ t.off + l.loc.readAmnt.toNat ≤ n := by
  have := hp.consec
  rw [hl] at this
  generalize hx : a + t.off = x at this
  generalize hy : a + n = y at this
  cases this with
  | cons _ _ k sk r _ e1 e0 e2 hr =>
    have := hr.le
    simp only [Int.toNat_natCast]
    omega

/-- a range lies in file `kf` or has nothing of it -/
theorem Region.head {lns : List Nat} {a n kf lo hi : Nat} (rg : Region lns a n kf lo hi) {t : Th} (hp : Pos lns a n t) {l : PieceLocation}
    {rest : List PieceLocation} (hl : t.ls = l :: rest) (h0 : 0 < l.loc.readAmnt.toNat) :
    l.fidx = kf ∧ lo ≤ t.off ∧ t.off + l.loc.readAmnt.toNat ≤ hi ∨ t.off + l.loc.readAmnt.toNat ≤ lo ∨ hi ≤ t.off := by
  obtain ⟨h1, h2, h3⟩ := hp.head hl
  have r1 := rg.start
  have r2 := rg.stop
  rcases Nat.lt_trichotomy l.fidx kf with h | h | h
  · have := startPos_mono lns (show l.fidx + 1 ≤ kf by omega)
    right; left; omega
  · left
    refine ⟨h, ?_⟩
    rw [h] at h1 h2
    have q1 := rg.all t.off (by omega) (by omega) (by omega)
    have q2 := rg.all (t.off + l.loc.readAmnt.toNat - 1) (by omega) (by omega) (by omega)
    omega
  · have := startPos_mono lns (show kf + 1 ≤ l.fidx by omega)
    right; right; omega

/-- in the middle of the part -/
def Within (lo hi : Nat) (t : Th) : Prop := lo < prog t ∧ prog t < hi

theorem within_move {fio : FileIO} {lns : List Nat} {a n kf lo hi : Nat} {locs : List PieceLocation} (rg : Region lns a n kf lo hi)
    (ho : (locs.map PieceLocation.fidx).Pairwise (· < ·)) {t : Th} {p : Bytes}
    (hp : (fio.torInfo.flist[kf]?).map (fun e => e.base.localPath) = some p) (pos : Pos lns a n t) (ht : Track lns a locs t)
    (hm : Within lo hi t) : t.pc.isMove = true ∧ headPath fio t = some p := by
  obtain ⟨h1, h2⟩ := hm
  have r1 := rg.start
  have r2 := rg.stop
  have r3 := rg.fits
  have hoff : ¬ (lo < t.off ∧ t.off < hi) := by
    rintro ⟨g1, g2⟩
    obtain ⟨dn, e1, e2⟩ := ht
    rw [e1] at ho
    exact no_cut e2 pos.consec ho kf (by omega) (by omega) (by omega) (by omega)
  unfold prog at h1 h2
  cases hpc : t.pc with
  | move k =>
    rw [hpc] at h1 h2
    simp only at h1 h2
    refine ⟨rfl, ?_⟩
    obtain ⟨l, rest, hl, hk⟩ := pos.mv k hpc
    have hk0 : 0 < k := by
      rcases Nat.eq_zero_or_pos k with h0 | h0
      · exact absurd ⟨by omega, by omega⟩ hoff
      · exact h0
    rcases rg.head pos hl (by omega) with ⟨h, -⟩ | h | h
    · unfold headPath; rw [hl]; simp only; rw [h, hp]
    · omega
    · omega
  | top => rw [hpc] at h1 h2; exact absurd ⟨h1, h2⟩ hoff
  | pending => rw [hpc] at h1 h2; exact absurd ⟨h1, h2⟩ hoff
  | done r => rw [hpc] at h1 h2; exact absurd ⟨h1, h2⟩ hoff

/-- only transfers make progress -/
theorem TStep.moved {fio : FileIO} {faulty : Bool} {s s' : Shared} {t t' : Th} (h : TStep fio faulty s t s' t') (hlt : prog t < prog t') :
    ∃ k l rest, t.pc = .move k ∧ t.ls = l :: rest ∧ prog t = t.off + k ∧ prog t' ≤ t.off + l.loc.readAmnt.toNat := by
  cases h with
  | finish hpc hl => simp [prog, hpc] at hlt
  | slice l rest hpc hl hbad => simp [prog, hpc] at hlt
  | noEntry l rest hpc hl hok he => simp [prog, hpc] at hlt
  | noPath l rest e hpc hl hok he ho => simp [prog, hpc] at hlt
  | rlock l rest e hpc hl hok he ho hw hfree => simp [prog, hpc] at hlt
  | announce l rest e hpc hl hok he ho hw hfree => simp [prog, hpc] at hlt
  | lock l rest e hpc hl he hfree => simp [prog, hpc] at hlt
  | get l rest e k m c hpc hl he hw hc hs0 hm hk hlen =>
    exact ⟨k, l, rest, hpc, hl, by simp [prog, hpc], by simp only [prog]; omega⟩
  | put l rest e k m c hpc hl he hw hc hs0 hm hk =>
    exact ⟨k, l, rest, hpc, hl, by simp [prog, hpc], by simp only [prog]; omega⟩
  | eof l rest e k c hpc hl he hw hc hs0 hk hlen => simp [prog, hpc] at hlt; omega
  | negative l rest e k hpc hl he hs0 => simp [prog, hpc] at hlt; omega
  | fail l rest e k hf hpc hl he => simp [prog, hpc] at hlt; omega
  | release l rest e k c hpc hl he hc hs0 hk => simp [prog, hpc] at hlt; omega

/-- the invariant for the part `lo ≤ o < hi` of piece `i`, which lies in one file -/
structure PInv (H : Bytes → Bytes) (hashes : Bytes) (np pl : Nat) (lns : List Nat) (locs : List PieceLocation) (stream : Bytes) (calls : List Call)
    (i lo hi : Nat) (s : St) (cs : List Bytes) (w : Bytes) : Prop where
  whole : Whole H hashes np pl stream calls i w
  rts : ∀ (j : Nat) buf t, calls[j]? = some (.read i buf) → s.ths[j]? = some t → Track lns (i * pl) locs t
  wts : ∀ (j : Nat) d spare t, calls[j]? = some (.write i d spare) → s.ths[j]? = some t → IsWrite H hashes np calls i d → Track lns (i * pl) locs t
  quiet : (∀ (j : Nat) d spare t, calls[j]? = some (.write i d spare) → s.ths[j]? = some t → IsWrite H hashes np calls i d →
    ¬ Within lo hi t) → SameOn lo hi (pieceOf cs.flatten pl i) w
  busy : ∀ (j : Nat) d spare t, calls[j]? = some (.write i d spare) → s.ths[j]? = some t → IsWrite H hashes np calls i d →
    Within lo hi t → SameOn lo (prog t) (pieceOf cs.flatten pl i) d ∧ SameOn (prog t) hi (pieceOf cs.flatten pl i) w
  reading : ∀ (j : Nat) buf t, calls[j]? = some (.read i buf) → s.ths[j]? = some t → Within lo hi t →
    SameOn lo (prog t) t.buf (pieceOf cs.flatten pl i)
  read : ∀ (j : Nat) buf t, calls[j]? = some (.read i buf) → s.ths[j]? = some t → hi ≤ prog t →
    ∃ v, Whole H hashes np pl stream calls i v ∧ SameOn lo hi t.buf v

/-- a step that does not touch the part -/
theorem PInv.same {H : Bytes → Bytes} {hashes : Bytes} {np pl : Nat} {lns : List Nat} {locs : List PieceLocation} {stream : Bytes} {calls : List Call}
    {i lo hi : Nat} {s : St} {cs cs' : List Bytes} {w : Bytes} (h : PInv H hashes np pl lns locs stream calls i lo hi s cs w) {j : Nat} {t t' : Th}
    {sh' : Shared} (hj : s.ths[j]? = some t) (hp : SameOn lo hi (pieceOf cs'.flatten pl i) (pieceOf cs.flatten pl i))
    (hR : ∀ buf, calls[j]? = some (.read i buf) → Track lns (i * pl) locs t' ∧
      (prog t' = prog t ∧ t'.buf = t.buf ∨ ¬ Within lo hi t' ∧ (hi ≤ prog t' → hi ≤ prog t ∧ SameOn lo hi t'.buf t.buf)))
    (hW : ∀ d spare, calls[j]? = some (.write i d spare) → IsWrite H hashes np calls i d → Track lns (i * pl) locs t' ∧
      (prog t' = prog t ∨ ¬ Within lo hi t ∧ ¬ Within lo hi t')) :
    PInv H hashes np pl lns locs stream calls i lo hi ⟨sh', s.ths.set j t'⟩ cs' w := by
  refine ⟨h.whole, ?_, ?_, ?_, ?_, ?_, ?_⟩
  · intro j' buf u hc hu
    rcases get_set hu with ⟨rfl, rfl⟩ | ⟨-, hu⟩
    · exact (hR buf hc).1
    · exact h.rts j' buf u hc hu
  · intro j' d spare u hc hu hi
    rcases get_set hu with ⟨rfl, rfl⟩ | ⟨-, hu⟩
    · exact (hW d spare hc hi).1
    · exact h.wts j' d spare u hc hu hi
  · intro hq o o1 o2
    rw [hp o o1 o2]
    refine h.quiet ?_ o o1 o2
    intro j' d spare u hc hu hiw
    by_cases hjj : j' = j
    · subst hjj
      rw [hj] at hu; cases hu
      have := hq j' d spare t' hc (by simp only; rw [List.getElem?_set, if_pos rfl, if_pos (List.getElem?_eq_some_iff.mp hj).1]) hiw
      rcases (hW d spare hc hiw).2 with e | ⟨e, -⟩
      · unfold Within at this ⊢
        rw [← e]; exact this
      · exact e
    · exact hq j' d spare u hc (by simp only; rw [List.getElem?_set, if_neg (fun h => hjj h.symm)]; exact hu) hiw
  · intro j' d spare u hc hu hiw hm
    have key : SameOn lo (prog u) (pieceOf cs.flatten pl i) d ∧ SameOn (prog u) hi (pieceOf cs.flatten pl i) w := by
      rcases get_set hu with ⟨rfl, rfl⟩ | ⟨-, hu⟩
      · rcases (hW d spare hc hiw).2 with e | ⟨-, e⟩
        · unfold Within at hm
          rw [e] at hm ⊢
          exact h.busy j' d spare t hc hj hiw hm
        · exact absurd hm e
      · exact h.busy j' d spare u hc hu hiw hm
    obtain ⟨m1, m2⟩ := hm
    exact ⟨fun o o1 o2 => by rw [hp o o1 (by omega)]; exact key.1 o o1 o2, fun o o1 o2 => by rw [hp o (by omega) o2]; exact key.2 o o1 o2⟩
  · intro j' buf u hc hu hm
    have key : SameOn lo (prog u) u.buf (pieceOf cs.flatten pl i) := by
      rcases get_set hu with ⟨rfl, rfl⟩ | ⟨-, hu⟩
      · rcases (hR buf hc).2 with ⟨e1, e2⟩ | ⟨e, -⟩
        · unfold Within at hm
          rw [e1] at hm ⊢
          rw [e2]
          exact h.reading j' buf t hc hj hm
        · exact absurd hm e
      · exact h.reading j' buf u hc hu hm
    obtain ⟨m1, m2⟩ := hm
    exact fun o o1 o2 => by rw [hp o o1 (by omega)]; exact key o o1 o2
  · intro j' buf u hc hu hm
    rcases get_set hu with ⟨rfl, rfl⟩ | ⟨-, hu⟩
    · rcases (hR buf hc).2 with ⟨e1, e2⟩ | ⟨-, e⟩
      · rw [e1] at hm
        rw [e2]
        exact h.read j' buf t hc hj hm
      · obtain ⟨g1, g2⟩ := e hm
        obtain ⟨v, v1, v2⟩ := h.read j' buf t hc hj g1
        exact ⟨v, v1, fun o o1 o2 => by rw [g2 o o1 o2]; exact v2 o o1 o2⟩
    · exact h.read j' buf u hc hu hm

theorem PInv.step {H : Bytes → Bytes} {hashes : Bytes} {pl : Nat} {files : List EntryBase} {ti : TorInfo} {fs : FS.State} {stream : Bytes}
    {calls : List Call} {s s' : St} {cs cs' : List Bytes} {i kf lo hi : Nat} {locs : List PieceLocation} {w p : Bytes}
    (hd : (files.map EntryBase.localPath).Nodup)
    (hz : Sized H hashes ti.numPieces pl stream calls) (hl : cs.flatten.length = stream.length) (hi' : i < ti.numPieces)
    (rg : Region (Files.lens files) (i * pl) (pieceOf stream pl i).length kf lo hi)
    (ho : (locs.map PieceLocation.fidx).Pairwise (· < ·))
    (hkf : (ti.flist[kf]?).map (fun e => e.base.localPath) = some p)
    (g : GInv H hashes pl files ti fs stream calls false s cs) (lk : LInv (openedAll ti) s)
    (h : PInv H hashes ti.numPieces pl (Files.lens files) locs stream calls i lo hi s cs w) (hs : Step (openedAll ti) false s s')
    (g' : GInv H hashes pl files ti fs stream calls false s' cs') :
    ∃ w', PInv H hashes ti.numPieces pl (Files.lens files) locs stream calls i lo hi s' cs' w' := by
  have hkf' : ((openedAll ti).torInfo.flist[kf]?).map (fun e => e.base.localPath) = some p := hkf
  have r1 := rg.ne
  have r2 := rg.fits
  -- readers and writers in the middle of the part hold the lock
  have midW : ∀ (j : Nat) d spare u, calls[j]? = some (.write i d spare) → s.ths[j]? = some u → IsWrite H hashes ti.numPieces calls i d →
      Within lo hi u → holdsW (openedAll ti) p u = true ∧ u.pc.isMove = true := by
    intro j d spare u hc hu hw hm
    obtain ⟨e1, e2, -⟩ := (g.ths j _ u hc hu).writePos hw
    obtain ⟨m1, m2⟩ := within_move rg ho hkf' e2 (h.wts j d spare u hc hu hw) hm
    refine ⟨?_, m1⟩
    unfold holdsW
    rw [e1, m2]
    have : u.pc.isBusy = true := by
      cases hpc : u.pc with
      | move k => rfl
      | top => rw [hpc] at m1; cases m1
      | pending => rfl
      | done r => rw [hpc] at m1; cases m1
    simp [this]
  have midR : ∀ (j : Nat) buf u, calls[j]? = some (.read i buf) → s.ths[j]? = some u →
      Within lo hi u → holdsR (openedAll ti) p u = true := by
    intro j buf u hc hu hm
    obtain ⟨e1, e2⟩ := (g.ths j _ u hc hu).readPos hi'
    obtain ⟨m1, m2⟩ := within_move rg ho hkf' e2 (h.rts j buf u hc hu) hm
    unfold holdsR
    rw [e1, m1, m2]; simp
  cases hs with
  | mk j t t' sh' hj ht =>
    obtain ⟨hjl, -⟩ := List.getElem?_eq_some_iff.mp hj
    obtain ⟨c, hcj⟩ : ∃ c, calls[j]? = some c := ⟨_, List.getElem?_eq_getElem (by rw [← g.len]; exact hjl)⟩
    have hT := g.ths j c t hcj hj
    have hset : (s.ths.set j t')[j]? = some t' := by rw [List.getElem?_set, if_pos rfl, if_pos hjl]
    -- a transfer of bytes of the piece: inside of the part, or outside of it
    have place : Pos (Files.lens files) (i * pl) (pieceOf stream pl i).length t → prog t < prog t' →
        (lo ≤ prog t ∧ prog t' ≤ hi ∧ headPath (openedAll ti) t = some p ∧ t.pc.isMove = true ∧ t.pc.isBusy = true) ∨ prog t' ≤ lo ∨ hi ≤ prog t := by
      intro pos hlt
      obtain ⟨k, l, rest, q1, q2, q3, q4⟩ := ht.moved hlt
      rcases rg.head pos q2 (by omega) with ⟨h0, h1, h2⟩ | h0 | h0
      · left
        refine ⟨by omega, by omega, ?_, by rw [q1]; rfl, by rw [q1]; rfl⟩
        unfold headPath; rw [q2]; simp only; rw [h0, hkf']
      · right; left; omega
      · right; right; omega
    cases hT with
    | badRead x buf _ e hpc hb => cases ht <;> simp_all
    | badWrite x d spare _ e hpc hb => cases ht <;> simp_all
    | read k buf _ hk hw pos rest noErr got =>
      obtain ⟨cs1, d1, d2, d3, d4, d5, eff⟩ := effect hd g.disk pos ht
      have := onDisk_unique g'.disk d1
      subst this
      have noW : ∀ d spare, calls[j]? ≠ some (.write i d spare) := by
        intro d spare hb'; rw [hcj] at hb'; cases hb'
      have isR : ∀ buf', calls[j]? = some (.read i buf') → k = i := by
        intro buf' hb'
        rw [hcj] at hb'
        simp only [Option.some.injEq, Call.read.injEq] at hb'
        omega
      have hts' : k = i → Track (Files.lens files) (i * pl) locs t' := by
        rintro rfl
        exact TStep.track pos (h.rts j buf t hcj hj) ht
      cases eff with
      | silent h1 h2 h3 h4 =>
        subst h1
        exact ⟨w, h.same hj (fun _ _ _ => rfl) (fun b' hb' => ⟨hts' (isR b' hb'), .inl ⟨h4, h3⟩⟩) (fun d spare hb' => absurd hb' (noW d spare))⟩
      | failed hf h1 h2 h3 h4 h5 => cases hf
      | put m hm hx hwt h3 h4 h5 h1 h6 => rw [hw] at hwt; cases hwt
      | got m hm hx hwf h1 h2 h4 h5 h3 h6 =>
        subst h1
        by_cases hki : k = i
        · subst hki
          have hfit := pos.fits
          have hrl : (range cs'.flatten (k * pl + prog t) m).length = m := range_length _ _ _ (by omega)
          rcases place pos (by omega) with ⟨l1, l2, p1, p2, p3⟩ | hout
          · have hR : holdsR (openedAll ti) p t = true := by unfold holdsR; rw [hw, p1, p2]; simp
            have noMid : ∀ (j : Nat) d spare u, calls[j]? = some (.write k d spare) → s.ths[j]? = some u →
                IsWrite H hashes ti.numPieces calls k d → ¬ Within lo hi u := by
              intro j' d spare u hc hu hiw hmid
              obtain ⟨m1, m2⟩ := midW j' d spare u hc hu hiw hmid
              have h0 := lk.excl p u (List.mem_of_getElem? hu) m1 m2
              have h1 := countP_ge (holdsR (openedAll ti) p) _ _ _ hj
              rw [← lk.rd p, hR, h0] at h1
              simp at h1
            have hpw := h.quiet noMid
            have hlp : (pieceOf cs'.flatten pl k).length = (pieceOf stream pl k).length := by rw [pieceOf_length, pieceOf_length, hl]
            -- the buffer so far
            have hbuf : SameOn lo (prog t') t'.buf (pieceOf cs'.flatten pl k) := by
              intro o ho1 ho2
              rw [h3, getElem?_splice _ _ _ (by omega)]
              split
              · rename_i hlt
                exact h.reading j buf t hcj hj ⟨by omega, by omega⟩ o ho1 hlt
              · rw [if_pos (by omega), getElem?_range, if_pos (by omega), show k * pl + prog t + (o - prog t) = k * pl + o by omega,
                  piece_byte _ _ _ _ (by omega)]
            refine ⟨w, h.whole, ?_, ?_, ?_, ?_, ?_, ?_⟩
            · intro j' b u hc hu
              rcases get_set hu with ⟨rfl, rfl⟩ | ⟨-, hu⟩
              · exact hts' rfl
              · exact h.rts j' b u hc hu
            · intro j' d spare u hc hu hiw
              rcases get_set hu with ⟨rfl, rfl⟩ | ⟨-, hu⟩
              · rw [hcj] at hc; cases hc
              · exact h.wts j' d spare u hc hu hiw
            · intro _; exact hpw
            · intro j' d spare u hc hu hiw hmid
              rcases get_set hu with ⟨rfl, rfl⟩ | ⟨-, hu⟩
              · rw [hcj] at hc; cases hc
              · exact absurd hmid (noMid j' d spare u hc hu hiw)
            · intro j' b u hc hu hmid
              rcases get_set hu with ⟨rfl, rfl⟩ | ⟨-, hu⟩
              · exact hbuf
              · exact h.reading j' b u hc hu hmid
            · intro j' b u hc hu hmid
              rcases get_set hu with ⟨rfl, rfl⟩ | ⟨-, hu⟩
              · exact ⟨w, h.whole, fun o o1 o2 => by rw [hbuf o o1 (by omega), hpw o o1 o2]⟩
              · exact h.read j' b u hc hu hmid
          · refine ⟨w, h.same hj (fun _ _ _ => rfl) (fun b' hb' => ⟨hts' rfl, .inr ⟨?_, ?_⟩⟩) (fun d spare hb' => absurd hb' (noW d spare))⟩
            · unfold Within; omega
            · intro hge
              refine ⟨by omega, ?_⟩
              intro o o1 o2
              rw [h3, getElem?_splice _ _ _ (by omega), if_pos (by omega)]
        · exact ⟨w, h.same hj (fun _ _ _ => rfl) (fun b' hb' => absurd (isR b' hb') hki) (fun d spare hb' => absurd hb' (noW d spare))⟩
    | write k d spare _ hk hw pos data noErr put =>
      obtain ⟨cs1, d1, d2, d3, d4, d5, eff⟩ := effect hd g.disk pos ht
      have := onDisk_unique g'.disk d1
      subst this
      have noR : ∀ buf, calls[j]? ≠ some (.read i buf) := by
        intro buf hb'; rw [hcj] at hb'; cases hb'
      have isW : ∀ d' spare', calls[j]? = some (.write i d' spare') → k = i := by
        intro d' spare' hb'
        rw [hcj] at hb'
        simp only [Option.some.injEq, Call.write.injEq] at hb'
        omega
      have hts' : k = i → Track (Files.lens files) (i * pl) locs t' := by
        rintro rfl
        exact TStep.track pos (h.wts j d spare t hcj hj hk) ht
      cases eff with
      | silent h1 h2 h3 h4 =>
        subst h1
        exact ⟨w, h.same hj (fun _ _ _ => rfl) (fun b' hb' => absurd hb' (noR b')) (fun d' spare' hb' _ => ⟨hts' (isW d' spare' hb'), .inl h4⟩)⟩
      | failed hf h1 h2 h3 h4 h5 => cases hf
      | got m hm hx hwf h1 h2 h4 h5 h3 h6 => rw [hw] at hwf; cases hwf
      | put m hm hx hwt h3 h4 h5 h1 h6 =>
        have hfit := pos.fits
        have hrl : (range t.buf (prog t) m).length = m := range_length _ _ _ (by omega)
        have hdl := hz.write k d hk
        have hcl : cs'.flatten.length = cs.flatten.length := by rw [h1, splice_length _ _ _ (by omega)]
        have hold : ∀ b, ¬ (k * pl + prog t ≤ b ∧ b < k * pl + prog t + m) → cs'.flatten[b]? = cs.flatten[b]? := by
          intro b hb
          rw [h1, getElem?_splice _ _ _ (by omega)]
          split
          · rfl
          · rw [if_neg (by omega)]
        have hnew : ∀ o, prog t ≤ o → o < prog t + m → cs'.flatten[k * pl + o]? = d[o]? := by
          intro o ho1 ho2
          rw [h1, getElem?_splice _ _ _ (by omega), if_neg (by omega), if_pos (by omega), getElem?_range, if_pos (by omega), data,
            List.getElem?_append_left (by omega)]
          congr 1; omega
        have hnp : (pieceOf stream pl k).length ≤ pl := by rw [pieceOf_length]; omega
        by_cases hki : k = i
        · subst hki
          have hlp : (pieceOf cs.flatten pl k).length = (pieceOf stream pl k).length := by rw [pieceOf_length, pieceOf_length, hl]
          have hlp' : (pieceOf cs'.flatten pl k).length = (pieceOf stream pl k).length := by rw [pieceOf_length, pieceOf_length, hcl, hl]
          have keep : ∀ o, o < (pieceOf stream pl k).length → ¬ (prog t ≤ o ∧ o < prog t + m) →
              (pieceOf cs'.flatten pl k)[o]? = (pieceOf cs.flatten pl k)[o]? := by
            intro o o1 o2
            rw [piece_byte _ _ _ _ (by omega), piece_byte _ _ _ _ (by omega), hold _ (by omega)]
          rcases place pos (by omega) with ⟨l1, l2, p1, p2, p3⟩ | hout
          · have hW : holdsW (openedAll ti) p t = true := by unfold holdsW; rw [hw, p1, p3]; simp
            have h0 := lk.excl p t (List.mem_of_getElem? hj) hW p2
            have noRd : ∀ (j : Nat) buf u, calls[j]? = some (.read k buf) → s.ths[j]? = some u → ¬ Within lo hi u := by
              intro j' buf u hc hu hmid
              have h1 := countP_ge (holdsR (openedAll ti) p) _ _ _ hu
              rw [← lk.rd p, midR j' buf u hc hu hmid, h0] at h1
              simp at h1
            have noWr : ∀ (j' : Nat) d spare u, j' ≠ j → calls[j']? = some (.write k d spare) → s.ths[j']? = some u →
                IsWrite H hashes ti.numPieces calls k d → ¬ Within lo hi u := by
              intro j' d' spare' u hne hc hu hiw hmid
              exact hne (lk.unique p hu hj (midW j' d' spare' u hc hu hiw hmid).1 hW)
            -- the part before and after
            have hbefore : SameOn lo (prog t) (pieceOf cs.flatten pl k) d ∧ SameOn (prog t) hi (pieceOf cs.flatten pl k) w := by
              rcases Nat.eq_or_lt_of_le l1 with hz0 | hpos
              · refine ⟨fun o o1 o2 => by omega, ?_⟩
                rw [← hz0]
                apply h.quiet
                intro j' d' spare' u hc hu hiw hmid
                by_cases hjj : j' = j
                · subst hjj
                  rw [hj] at hu; cases hu
                  have := hmid.1
                  omega
                · exact noWr j' d' spare' u hjj hc hu hiw hmid
              · exact h.busy j d spare t hcj hj hk ⟨hpos, by omega⟩
            have hafter : SameOn lo (prog t') (pieceOf cs'.flatten pl k) d ∧ SameOn (prog t') hi (pieceOf cs'.flatten pl k) w := by
              constructor
              · intro o o1 o2
                rcases Nat.lt_or_ge o (prog t) with ho' | ho'
                · rw [keep o (by omega) (by omega)]; exact hbefore.1 o o1 ho'
                · rw [piece_byte _ _ _ _ (by omega)]; exact hnew o ho' (by omega)
              · intro o o1 o2
                rw [keep o (by omega) (by omega)]
                exact hbefore.2 o (by omega) o2
            refine ⟨if prog t' = hi then d else w, ?_, ?_, ?_, ?_, ?_, ?_, ?_⟩
            · split
              · exact .inr hk
              · exact h.whole
            · intro j' b u hc hu
              rcases get_set hu with ⟨rfl, rfl⟩ | ⟨-, hu⟩
              · rw [hcj] at hc; cases hc
              · exact h.rts j' b u hc hu
            · intro j' d' spare' u hc hu hiw
              rcases get_set hu with ⟨rfl, rfl⟩ | ⟨-, hu⟩
              · exact hts' rfl
              · exact h.wts j' d' spare' u hc hu hiw
            · intro hq
              have hnm := hq j d spare t' hcj hset hk
              have : prog t' = hi := by
                unfold Within at hnm
                omega
              rw [if_pos this]
              have := hafter.1
              rwa [‹prog t' = hi›] at this
            · intro j' d' spare' u hc hu hiw hmid
              rcases get_set hu with ⟨rfl, rfl⟩ | ⟨hne, hu⟩
              · rw [hcj] at hc; cases hc
                rw [if_neg (by have := hmid.2; omega)]
                exact hafter
              · exact absurd hmid (noWr j' d' spare' u hne hc hu hiw)
            · intro j' b u hc hu hmid
              rcases get_set hu with ⟨rfl, rfl⟩ | ⟨-, hu⟩
              · rw [hcj] at hc; cases hc
              · exact absurd hmid (noRd j' b u hc hu)
            · intro j' b u hc hu hmid
              rcases get_set hu with ⟨rfl, rfl⟩ | ⟨-, hu⟩
              · rw [hcj] at hc; cases hc
              · exact h.read j' b u hc hu hmid
          · refine ⟨w, h.same hj ?_ (fun b' hb' => absurd hb' (noR b')) (fun d' spare' hb' _ => ⟨hts' rfl, .inr ⟨?_, ?_⟩⟩)⟩
            · intro o o1 o2
              exact keep o (by omega) (by omega)
            · unfold Within; omega
            · unfold Within; omega
        · refine ⟨w, h.same hj ?_ (fun b' hb' => absurd hb' (noR b')) (fun d' spare' hb' _ => absurd (isW d' spare' hb') hki)⟩
          rw [pieceOf_other cs.flatten cs'.flatten pl k i (k * pl + prog t) (k * pl + prog t + m) hki (by omega)
            (by rw [Nat.add_mul]; omega) hcl hold]
          exact fun _ _ _ => rfl

/-! ### What is read and what is left on disk -/

/-- `x` is a mixture for piece `i`: the bytes that belong to one file are all from the piece as it was at the beginning, or all from the data of one
of the writes; this can be different from file to file -/
def Mixture (H : Bytes → Bytes) (hashes : Bytes) (np pl : Nat) (lns : List Nat) (stream : Bytes) (calls : List Call) (i : Nat) (x : Bytes) : Prop :=
  x.length = (pieceOf stream pl i).length ∧
  ∀ kf, ∃ v, (v = pieceOf stream pl i ∨ IsWrite H hashes np calls i v) ∧
    ∀ o, o < x.length → startPos lns kf ≤ i * pl + o → i * pl + o < startPos lns (kf + 1) → x[o]? = v[o]?

theorem region_of (lns : List Nat) (a n kf o : Nat) (h0 : o < n) (h1 : startPos lns kf ≤ a + o) (h2 : a + o < startPos lns (kf + 1)) :
    Region lns a n kf (startPos lns kf - a) (min n (startPos lns (kf + 1) - a)) :=
  ⟨by omega, by omega, by omega, by omega, fun o' g0 g1 g2 => by omega⟩

theorem pinv_reach (H : Bytes → Bytes) {pl : Nat} {hashes : Bytes} {files : List EntryBase} {ti : TorInfo} (h : Accepted pl hashes files ti)
    (hd : (files.map EntryBase.localPath).Nodup) {fs : FS.State} {cs : List Bytes} (hs : Stored fs files cs) {calls : List Call}
    (hz : Sized H hashes ti.numPieces pl cs.flatten calls) {i : Nat} (hi : i < ti.numPieces) {kf lo hi' : Nat}
    (rg : Region (Files.lens files) (i * pl) (pieceOf cs.flatten pl i).length kf lo hi') {s : St}
    (hr : Reach (Step (openedAll ti) false) (init H ti fs calls) s) :
    ∃ locs cs' w, (locs.map PieceLocation.fidx).Pairwise (· < ·) ∧
      GInv H hashes pl files ti fs cs.flatten calls false s cs' ∧ cs'.flatten.length = cs.flatten.length ∧
      LInv (openedAll ti) s ∧ PInv H hashes ti.numPieces pl (Files.lens files) locs cs.flatten calls i lo hi' s cs' w := by
  obtain ⟨locs, hlk, hcon⟩ := consec_end h hs.1 i hi
  obtain ⟨name, hmade⟩ := h.made
  have ho := newTorInfo_ord name pl hashes files ti hmade i locs hlk
  have hkl : kf < (Files.lens files).length := by
    rcases Nat.lt_or_ge kf (Files.lens files).length with hlt | hge
    · exact hlt
    · have r1 := rg.ne
      have r2 := rg.start
      have r3 := rg.stop
      unfold startPos at r2 r3
      rw [List.take_of_length_le hge] at r2
      rw [List.take_of_length_le (by omega)] at r3
      omega
  obtain ⟨e, -, he, -⟩ := (h.onDisk hs).get kf hkl
  have hkf : (ti.flist[kf]?).map (fun e => e.base.localPath) = some e.base.localPath := by
    have : ti.flist[kf]? = some e := he
    rw [this]; rfl
  have r1 := rg.ne
  refine ⟨locs, ?_⟩
  induction hr with
  | refl =>
    have g := start_ginv H h hs calls hz false
    refine ⟨cs, pieceOf cs.flatten pl i, ho, g, rfl, start_linv H _ ti fs calls, .inl rfl, ?_, ?_, fun _ _ _ _ => rfl, ?_, ?_, ?_⟩
    · intro j buf t hc ht
      unfold init at ht; simp only at ht
      rw [List.getElem?_map, hc] at ht
      simp only [Option.map_some, Option.some.injEq] at ht
      subst ht
      unfold start startRead; simp only; rw [hlk]
      exact ⟨[], rfl, .nil _⟩
    · intro j d spare t hc ht hw
      unfold init at ht; simp only at ht
      rw [List.getElem?_map, hc] at ht
      simp only [Option.map_some, Option.some.injEq] at ht
      subst ht
      unfold start startWrite; simp only; rw [hlk, h.hash i hi]; simp only
      rw [if_neg (by simp [hw.2.1])]
      exact ⟨[], rfl, .nil _⟩
    · intro j d spare t hc ht hw hm
      unfold init at ht; simp only at ht
      rw [List.getElem?_map, hc] at ht
      simp only [Option.map_some, Option.some.injEq] at ht
      subst ht
      unfold start startWrite at hm; simp only at hm; rw [hlk, h.hash i hi] at hm; simp only at hm
      rw [if_neg (by simp [hw.2.1])] at hm
      exact absurd hm.1 (by simp [prog])
    · intro j buf t hc ht hm
      unfold init at ht; simp only at ht
      rw [List.getElem?_map, hc] at ht
      simp only [Option.map_some, Option.some.injEq] at ht
      subst ht
      unfold start startRead at hm; simp only at hm; rw [hlk] at hm
      exact absurd hm.1 (by simp [prog])
    · intro j buf t hc ht hm
      unfold init at ht; simp only at ht
      rw [List.getElem?_map, hc] at ht
      simp only [Option.map_some, Option.some.injEq] at ht
      subst ht
      unfold start startRead at hm; simp only at hm; rw [hlk] at hm
      simp only [prog] at hm
      omega
  | tail s' s'' _ hstep ih =>
    obtain ⟨cs', w, -, g, hl, lk, wi⟩ := ih
    obtain ⟨cs'', g', hl'⟩ := g.step hd hz hl hstep
    obtain ⟨w', wi'⟩ := wi.step hd hz hl hi rg ho hkf g lk hstep g'
    exact ⟨cs'', w', ho, g', hl', lk.step hstep, wi'⟩

/-- **C74**: for every piece (and system calls that do not fail), the part in each file is read and written as a whole: a successful ReadPiece delivers,
file by file, the bytes of the beginning or those of one of the writes, and the same holds for what is on disk when all calls have returned (or more
generally, when none of them is transferring data). -/
theorem C74_parts (H : Bytes → Bytes) (pl : Nat) (hashes : Bytes) (files : List EntryBase) (ti : TorInfo) (h : Accepted pl hashes files ti)
    (hd : (files.map EntryBase.localPath).Nodup) (fs : FS.State) (cs : List Bytes) (hs : Stored fs files cs) (calls : List Call)
    (hz : Sized H hashes ti.numPieces pl cs.flatten calls) (i : Nat) (hi : i < ti.numPieces) (s : St)
    (hr : Reach (Step (openedAll ti) false) (init H ti fs calls) s) :
    (∀ (j : Nat) (buf : Bytes) (t : Th) (n : Nat), calls[j]? = some (.read i buf) → s.ths[j]? = some t → t.pc = .done (.ok n) →
      ∃ x, t.buf = x ++ buf.drop n ∧ x.length = n ∧ Mixture H hashes ti.numPieces pl (Files.lens files) cs.flatten calls i x) ∧
    ((∀ t ∈ s.ths, t.pc.isMove = false) → ∃ cs', Stored s.sh.fs files cs' ∧
      Mixture H hashes ti.numPieces pl (Files.lens files) cs.flatten calls i (pieceOf cs'.flatten pl i)) := by
  constructor
  · intro j buf t n hc ht hpc
    obtain ⟨cs0, -, -, -, h4⟩ := C74_bytes H pl hashes files ti h hd fs cs hs calls hz false s hr
    obtain ⟨k, e1, -, e3, e4, -⟩ := h4 j i buf t n hc ht hpc
    have : k = i := by omega
    subst this
    obtain ⟨cs1, g, -⟩ := ginv_reach H h hd hs calls hz false s hr
    obtain ⟨-, pos⟩ := (g.ths j _ t hc ht).readPos hi
    have hfit := pos.fits
    have hpr : prog t = (pieceOf cs.flatten pl k).length := by
      unfold prog; rw [hpc]
      rcases pos.fin _ hpc with ⟨e, he⟩ | ⟨-, ho⟩
      · cases he
      · exact ho
    have hxl : (t.buf.take n).length = n := by rw [List.length_take]; omega
    refine ⟨t.buf.take n, by rw [← e4, List.take_append_drop], hxl, by rw [hxl]; exact e3, ?_⟩
    intro kf
    by_cases hne : ∃ o, o < n ∧ startPos (Files.lens files) kf ≤ k * pl + o ∧ k * pl + o < startPos (Files.lens files) (kf + 1)
    · obtain ⟨o, o1, o2, o3⟩ := hne
      obtain ⟨locs, cs', w, -, -, -, -, wi⟩ := pinv_reach H h hd hs hz hi (region_of (Files.lens files) (k * pl) _ kf o (by omega) o2 o3) hr
      obtain ⟨v, v1, v2⟩ := wi.read j buf t hc ht (by omega)
      refine ⟨v, v1, ?_⟩
      intro o' g1 g2 g3
      rw [hxl] at g1
      rw [List.getElem?_take_of_lt g1]
      exact v2 o' (by omega) (by omega)
    · refine ⟨_, .inl rfl, ?_⟩
      intro o' g1 g2 g3
      rw [hxl] at g1
      exact absurd ⟨o', g1, g2, g3⟩ hne
  · intro hall
    obtain ⟨cs', g, hl⟩ := ginv_reach H h hd hs calls hz false s hr
    have hxl : (pieceOf cs'.flatten pl i).length = (pieceOf cs.flatten pl i).length := by rw [pieceOf_length, pieceOf_length, hl]
    refine ⟨cs', ⟨g.disk.lens, fun k f c hf hc => (g.disk.disk k f c hf hc).1⟩, hxl, ?_⟩
    intro kf
    by_cases hne : ∃ o, o < (pieceOf cs.flatten pl i).length ∧ startPos (Files.lens files) kf ≤ i * pl + o ∧
        i * pl + o < startPos (Files.lens files) (kf + 1)
    · obtain ⟨o, o1, o2, o3⟩ := hne
      have rg := region_of (Files.lens files) (i * pl) _ kf o o1 o2 o3
      obtain ⟨locs, cs2, w, hord, g2, -, -, wi⟩ := pinv_reach H h hd hs hz hi rg hr
      have := onDisk_unique g2.disk g.disk
      subst this
      obtain ⟨e, -, he, -⟩ := (h.onDisk hs).get kf (by
        rcases Nat.lt_or_ge kf (Files.lens files).length with hlt | hge
        · exact hlt
        · unfold startPos at o2 o3
          rw [List.take_of_length_le hge] at o2
          rw [List.take_of_length_le (by omega)] at o3
          omega)
      have hkf : ((openedAll ti).torInfo.flist[kf]?).map (fun e => e.base.localPath) = some e.base.localPath := by
        rw [he]; rfl
      have := wi.quiet (by
        intro j d spare t hc ht hw hm
        obtain ⟨m1, -⟩ := within_move rg hord hkf ((g2.ths j _ t hc ht).writePos hw).2.1 (wi.wts j d spare t hc ht hw) hm
        rw [hall t (List.mem_of_getElem? ht)] at m1; cases m1)
      refine ⟨w, wi.whole, ?_⟩
      intro o' g1 g2 g3
      exact this o' (by omega) (by omega)
    · refine ⟨_, .inl rfl, ?_⟩
      intro o' g1 g2 g3
      rw [hxl] at g1
      exact absurd ⟨o', g1, g2, g3⟩ hne

end Verif.FileConc
