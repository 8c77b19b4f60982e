import Verif.Props.FileConc
/-
Property C74, continued: a piece that lies in one file is read as a whole; a piece of several files is not.
-/
set_option autoImplicit false

namespace Verif.FileConc
open Verif.Files Verif.FS Verif.FileIO Verif.Layout Verif.Lts

theorem consec_zero {ls : List Nat} {a b : Nat} {locs : List PieceLocation} (h : Consec ls a locs b)
    (hz : ∀ l ∈ locs, l.loc.readAmnt = 0) : b = a := by
  induction h with
  | nil => rfl
  | cons a b k s r rest e1 e0 e2 hr ih =>
    have h1 := ih (fun l hl => hz l (by simp [hl]))
    have h2 := hz _ (List.mem_cons_self ..)
    simp only at h2
    omega

/-- the ranges of a piece that lies inside of file `kf`: one has all bytes, the others are empty -/
theorem consec_single {ls : List Nat} {x b : Nat} {locs : List PieceLocation} (h : Consec ls x locs b)
    (ho : (locs.map PieceLocation.fidx).Pairwise (· < ·)) (kf : Nat) (h1 : startPos ls kf ≤ x) (h2 : b ≤ startPos ls (kf + 1)) :
    ∀ l ∈ locs, l.loc.readAmnt = 0 ∨ l.loc.readAmnt = ((b - x : Nat) : Int) ∧ l.fidx = kf := by
  induction h with
  | nil => simp
  | cons a b k s r rest e1 e0 e2 hr ih =>
    rw [List.map_cons, List.pairwise_cons] at ho
    have hle := hr.le
    have ih := ih ho.2 (by omega) h2
    rcases Nat.eq_zero_or_pos r with rfl | hpos
    · intro l hl
      rcases List.mem_cons.mp hl with rfl | hl
      · left; rfl
      · simpa using ih l hl
    · have hk : k = kf := by
        rcases Nat.lt_trichotomy k kf with hlt | heq | hgt
        · have := startPos_mono ls (i := k + 1) (j := kf) hlt
          omega
        · exact heq
        · have := startPos_mono ls (i := kf + 1) (j := k) hgt
          omega
      subst hk
      have hzero : ∀ l ∈ rest, l.loc.readAmnt = 0 := by
        intro l hl
        rcases ih l hl with h | ⟨-, h⟩
        · exact h
        · have := ho.1 l.fidx (List.mem_map.mpr ⟨l, hl, rfl⟩)
          simp only at this
          omega
      have := consec_zero hr hzero
      intro l hl
      rcases List.mem_cons.mp hl with rfl | hl
      · right
        refine ⟨?_, rfl⟩
        simp only; omega
      · exact .inl (hzero l hl)

/-- a goroutine that works on a piece inside of file `kf` -/
structure TS (n kf : Nat) (t : Th) : Prop where
  locs : ∀ l ∈ t.ls, l.loc.readAmnt = 0 ∨ l.loc.readAmnt = (n : Int) ∧ l.fidx = kf
  off : t.off = 0 ∨ t.off = n

theorem TStep.ts {fio : FileIO} {faulty : Bool} {lns : List Nat} {a n kf : Nat} {s s' : Shared} {t t' : Th} (hp : Pos lns a n t) (ht : TS n kf t)
    (h : TStep fio faulty s t s' t') : TS n kf t' := by
  cases h with
  | release l rest e k c hpc hl he hc hs0 hk =>
    refine ⟨fun x hx => ht.locs x (by rw [hl]; simp [hx]), ?_⟩
    simp only
    have hle : a + t.off + l.loc.readAmnt.toNat ≤ a + n := by
      have := hp.consec
      rw [hl] at this
      generalize a + t.off = x at this
      generalize a + n = y at this
      cases this with
      | cons _ _ k sk r _ e1 e0 e2 hr => simp only [Int.toNat_natCast]; exact hr.le
    rcases ht.locs l (by rw [hl]; simp) with h | ⟨h, -⟩
    · rw [h]; simpa using ht.off
    · rw [h] at hle ⊢
      simp only [Int.toNat_natCast] at hle ⊢
      rcases ht.off with h | h <;> omega
  | finish => exact ⟨ht.locs, ht.off⟩
  | slice => exact ⟨ht.locs, ht.off⟩
  | noEntry => exact ⟨ht.locs, ht.off⟩
  | noPath => exact ⟨ht.locs, ht.off⟩
  | rlock => exact ⟨ht.locs, ht.off⟩
  | announce => exact ⟨ht.locs, ht.off⟩
  | lock => exact ⟨ht.locs, ht.off⟩
  | get => exact ⟨ht.locs, ht.off⟩
  | put => exact ⟨ht.locs, ht.off⟩
  | eof => exact ⟨ht.locs, ht.off⟩
  | negative => exact ⟨ht.locs, ht.off⟩
  | fail => exact ⟨ht.locs, ht.off⟩

/-- in the middle of the piece -/
def Mid (n : Nat) (t : Th) : Prop := 0 < prog t ∧ prog t < n

theorem mid_move {fio : FileIO} {n kf : Nat} {t : Th} {p : Bytes} (hp : (fio.torInfo.flist[kf]?).map (fun e => e.base.localPath) = some p)
    (hmv : ∀ k, t.pc = .move k → ∃ l rest, t.ls = l :: rest ∧ k ≤ l.loc.readAmnt.toNat) (ht : TS n kf t) (hm : Mid n t) :
    t.pc.isMove = true ∧ headPath fio t = some p := by
  obtain ⟨h1, h2⟩ := hm
  unfold prog at h1 h2
  cases hpc : t.pc with
  | move k =>
    rw [hpc] at h1 h2
    simp only at h1 h2
    refine ⟨rfl, ?_⟩
    obtain ⟨l, rest, hl, hk⟩ := hmv k hpc
    have hoff : t.off = 0 := by rcases ht.off with h | h <;> omega
    rcases ht.locs l (by rw [hl]; simp) with h | ⟨h, h'⟩
    · rw [h] at hk; simp at hk; omega
    · unfold headPath; rw [hl]; simp only; rw [h', hp]
  | top => rw [hpc] at h1 h2; simp only at h1 h2; rcases ht.off with h | h <;> omega
  | pending => rw [hpc] at h1 h2; simp only at h1 h2; rcases ht.off with h | h <;> omega
  | done r => rw [hpc] at h1 h2; simp only at h1 h2; rcases ht.off with h | h <;> omega

/-- what the piece may be as a whole -/
def Whole (H : Bytes → Bytes) (hashes : Bytes) (np pl : Nat) (stream : Bytes) (calls : List Call) (i : Nat) (w : Bytes) : Prop :=
  w = pieceOf stream pl i ∨ IsWrite H hashes np calls i w

/-- the invariant for piece `i`, which lies in file `kf` -/
structure WInv (H : Bytes → Bytes) (hashes : Bytes) (np pl : Nat) (stream : Bytes) (calls : List Call) (i kf : Nat) (s : St) (cs : List Bytes)
    (w : Bytes) : Prop where
  whole : Whole H hashes np pl stream calls i w
  rts : ∀ (j : Nat) buf t, calls[j]? = some (.read i buf) → s.ths[j]? = some t → TS (pieceOf stream pl i).length kf t
  wts : ∀ (j : Nat) d spare t, calls[j]? = some (.write i d spare) → s.ths[j]? = some t → IsWrite H hashes np calls i d →
    TS (pieceOf stream pl i).length kf t
  quiet : (∀ (j : Nat) d spare t, calls[j]? = some (.write i d spare) → s.ths[j]? = some t → IsWrite H hashes np calls i d →
    ¬ Mid (pieceOf stream pl i).length t) → pieceOf cs.flatten pl i = w
  busy : ∀ (j : Nat) d spare t, calls[j]? = some (.write i d spare) → s.ths[j]? = some t → IsWrite H hashes np calls i d →
    Mid (pieceOf stream pl i).length t → pieceOf cs.flatten pl i = d.take (prog t) ++ w.drop (prog t)
  reading : ∀ (j : Nat) buf t, calls[j]? = some (.read i buf) → s.ths[j]? = some t → Mid (pieceOf stream pl i).length t →
    ∀ o < prog t, t.buf[o]? = (pieceOf cs.flatten pl i)[o]?
  read : ∀ (j : Nat) buf t, calls[j]? = some (.read i buf) → s.ths[j]? = some t → prog t = (pieceOf stream pl i).length →
    Whole H hashes np pl stream calls i (t.buf.take (pieceOf stream pl i).length)

theorem TInv.readPos {H : Bytes → Bytes} {hashes : Bytes} {np pl : Nat} {files : List EntryBase} {stream : Bytes} {calls : List Call} {faulty : Bool}
    {cs : List Bytes} {i : Nat} {buf : Bytes} {t : Th} (h : TInv H hashes np pl files stream calls faulty cs (.read i buf) t) (hi : i < np) :
    t.write = false ∧ Pos (Files.lens files) (i * pl) (pieceOf stream pl i).length t := by
  generalize hx : (i : Int) = x at h
  cases h with
  | badRead _ _ _ e hpc hbad => exact absurd hx.symm (hbad i hi)
  | read k _ _ hk hw pos rest noErr got =>
    have : i = k := by omega
    subst this; exact ⟨hw, pos⟩

theorem TInv.writePos {H : Bytes → Bytes} {hashes : Bytes} {np pl : Nat} {files : List EntryBase} {stream : Bytes} {calls : List Call} {faulty : Bool}
    {cs : List Bytes} {i : Nat} {d spare : Bytes} {t : Th} (h : TInv H hashes np pl files stream calls faulty cs (.write i d spare) t)
    (hi : IsWrite H hashes np calls i d) :
    t.write = true ∧ Pos (Files.lens files) (i * pl) (pieceOf stream pl i).length t ∧ t.buf = d ++ spare := by
  generalize hx : (i : Int) = x at h
  cases h with
  | badWrite _ _ _ _ e hpc hbad => exact absurd hi.2.1 (hbad i hi.1 hx.symm)
  | write k _ _ _ hk hw pos data noErr put =>
    have : i = k := by omega
    subst this; exact ⟨hw, pos, data⟩

theorem pieceOf_other (x y : Bytes) (pl i k a b : Nat) (hik : i ≠ k) (ha : i * pl ≤ a) (hb : b ≤ (i + 1) * pl)
    (hl : y.length = x.length) (h : ∀ p, ¬ (a ≤ p ∧ p < b) → y[p]? = x[p]?) : pieceOf y pl k = pieceOf x pl k := by
  have hlen : (pieceOf y pl k).length = (pieceOf x pl k).length := by rw [pieceOf_length, pieceOf_length, hl]
  apply List.ext_getElem?
  intro o
  rcases Nat.lt_or_ge o (pieceOf x pl k).length with hlt | hge
  · rw [piece_byte _ _ _ _ (by omega), piece_byte _ _ _ _ hlt]
    apply h
    rw [pieceOf_length] at hlt
    rintro ⟨h1, h2⟩
    rcases Nat.lt_or_gt_of_ne hik with h3 | h3
    · have := Nat.mul_le_mul_right pl h3
      rw [Nat.succ_mul] at this
      rw [Nat.add_mul] at hb
      omega
    · have := Nat.mul_le_mul_right pl h3
      rw [Nat.succ_mul] at this
      omega
  · rw [List.getElem?_eq_none_iff.mpr (by omega), List.getElem?_eq_none_iff.mpr hge]

theorem get_set {α : Type} {l : List α} {j j' : Nat} {b u : α} (h : (l.set j b)[j']? = some u) : j' = j ∧ u = b ∨ j' ≠ j ∧ l[j']? = some u := by
  rw [List.getElem?_set] at h
  split at h
  · rename_i he
    split at h
    · cases h; exact .inl ⟨he.symm, rfl⟩
    · cases h
  · rename_i he
    exact .inr ⟨fun h => he h.symm, h⟩

/-- a step that changes neither the piece nor what a goroutine has transferred of it -/
theorem WInv.same {H : Bytes → Bytes} {hashes : Bytes} {np pl : Nat} {stream : Bytes} {calls : List Call} {i kf : Nat} {s : St} {cs cs' : List Bytes}
    {w : Bytes} (h : WInv H hashes np pl stream calls i kf s cs w) {j : Nat} {t t' : Th} {sh' : Shared} (hj : s.ths[j]? = some t)
    (hp : pieceOf cs'.flatten pl i = pieceOf cs.flatten pl i)
    (hlive : ((∃ buf, calls[j]? = some (.read i buf)) ∨ ∃ d spare, calls[j]? = some (.write i d spare) ∧ IsWrite H hashes np calls i d) →
      prog t' = prog t ∧ t'.buf = t.buf ∧ TS (pieceOf stream pl i).length kf t') :
    WInv H hashes np pl stream calls i kf ⟨sh', s.ths.set j t'⟩ cs' w := by
  refine ⟨h.whole, ?_, ?_, ?_, ?_, ?_, ?_⟩
  · intro j' buf u hc hu
    rcases get_set hu with ⟨rfl, rfl⟩ | ⟨-, hu⟩
    · exact (hlive (.inl ⟨buf, hc⟩)).2.2
    · exact h.rts j' buf u hc hu
  · intro j' d spare u hc hu hi
    rcases get_set hu with ⟨rfl, rfl⟩ | ⟨-, hu⟩
    · exact (hlive (.inr ⟨d, spare, hc, hi⟩)).2.2
    · exact h.wts j' d spare u hc hu hi
  · intro hq
    rw [hp]
    apply h.quiet
    intro j' d spare u hc hu hi
    by_cases hjj : j' = j
    · subst hjj
      rw [hj] at hu; cases hu
      have := hq j' d spare t' hc (by simp only; rw [List.getElem?_set, if_pos rfl, if_pos (List.getElem?_eq_some_iff.mp hj).1]) hi
      unfold Mid at this ⊢
      rw [← (hlive (.inr ⟨d, spare, hc, hi⟩)).1]; exact this
    · exact hq j' d spare u hc (by simp only; rw [List.getElem?_set, if_neg (fun h => hjj h.symm)]; exact hu) hi
  · intro j' d spare u hc hu hi hm
    rw [hp]
    rcases get_set hu with ⟨rfl, rfl⟩ | ⟨-, hu⟩
    · obtain ⟨e1, e2, -⟩ := hlive (.inr ⟨d, spare, hc, hi⟩)
      unfold Mid at hm
      rw [e1] at hm ⊢
      exact h.busy j' d spare t hc hj hi hm
    · exact h.busy j' d spare u hc hu hi hm
  · intro j' buf u hc hu hm
    rw [hp]
    rcases get_set hu with ⟨rfl, rfl⟩ | ⟨-, hu⟩
    · obtain ⟨e1, e2, -⟩ := hlive (.inl ⟨buf, hc⟩)
      unfold Mid at hm
      rw [e1] at hm ⊢
      rw [e2]
      exact h.reading j' buf t hc hj hm
    · exact h.reading j' buf u hc hu hm
  · intro j' buf u hc hu hm
    rcases get_set hu with ⟨rfl, rfl⟩ | ⟨-, hu⟩
    · obtain ⟨e1, e2, -⟩ := hlive (.inl ⟨buf, hc⟩)
      rw [e1] at hm
      rw [e2]
      exact h.read j' buf t hc hj hm
    · exact h.read j' buf u hc hu hm

theorem onDisk_unique {fs : FS.State} {fio : FileIO} {files : List EntryBase} {cs cs' : List Bytes} (h : OnDisk fs fio files cs)
    (h' : OnDisk fs fio files cs') : cs = cs' := by
  have hl : cs.length = files.length := by
    have := congrArg List.length h.lens; simpa [Files.lens] using this
  have hl' : cs'.length = files.length := by
    have := congrArg List.length h'.lens; simpa [Files.lens] using this
  apply List.ext_getElem?
  intro k
  rcases Nat.lt_or_ge k files.length with hk | hk
  · have h1 := (h.disk k _ _ (List.getElem?_eq_getElem hk) (List.getElem?_eq_getElem (by omega))).1
    have h2 := (h'.disk k _ _ (List.getElem?_eq_getElem hk) (List.getElem?_eq_getElem (by omega))).1
    rw [h1] at h2
    simp only [Option.some.injEq] at h2
    rw [List.getElem?_eq_getElem (by omega), List.getElem?_eq_getElem (by omega), h2]
  · rw [List.getElem?_eq_none_iff.mpr (by omega), List.getElem?_eq_none_iff.mpr (by omega)]

theorem WInv.step {H : Bytes → Bytes} {hashes : Bytes} {pl : Nat} {files : List EntryBase} {ti : TorInfo} {fs : FS.State} {stream : Bytes}
    {calls : List Call} {s s' : St} {cs cs' : List Bytes} {i kf : Nat} {w p : Bytes} (hd : (files.map EntryBase.localPath).Nodup)
    (hz : Sized H hashes ti.numPieces pl stream calls) (hl : cs.flatten.length = stream.length) (hi : i < ti.numPieces)
    (hkf : (ti.flist[kf]?).map (fun e => e.base.localPath) = some p)
    (g : GInv H hashes pl files ti fs stream calls false s cs) (lk : LInv (openedAll ti) s)
    (h : WInv H hashes ti.numPieces pl stream calls i kf s cs w) (hs : Step (openedAll ti) false s s')
    (g' : GInv H hashes pl files ti fs stream calls false s' cs') :
    ∃ w', WInv H hashes ti.numPieces pl stream calls i kf s' cs' w' := by
  have hkf' : ((openedAll ti).torInfo.flist[kf]?).map (fun e => e.base.localPath) = some p := hkf
  -- readers and writers in the middle of the piece hold the lock
  have midW : ∀ (j : Nat) d spare u, calls[j]? = some (.write i d spare) → s.ths[j]? = some u → IsWrite H hashes ti.numPieces calls i d →
      Mid (pieceOf stream pl i).length u → holdsW (openedAll ti) p u = true ∧ u.pc.isMove = true := by
    intro j d spare u hc hu hw hm
    obtain ⟨e1, e2, -⟩ := (g.ths j _ u hc hu).writePos hw
    obtain ⟨m1, m2⟩ := mid_move hkf' e2.mv (h.wts j d spare u hc hu hw) hm
    refine ⟨?_, m1⟩
    unfold holdsW
    rw [e1, m2]
    have : u.pc.isBusy = true := by
      cases hpc : u.pc with
      | move k => rfl
      | top => rw [hpc] at m1; cases m1
      | pending => rfl
      | done r => rw [hpc] at m1; cases m1
    simp [this]
  have midR : ∀ (j : Nat) buf u, calls[j]? = some (.read i buf) → s.ths[j]? = some u →
      Mid (pieceOf stream pl i).length u → holdsR (openedAll ti) p u = true := by
    intro j buf u hc hu hm
    obtain ⟨e1, e2⟩ := (g.ths j _ u hc hu).readPos hi
    obtain ⟨m1, m2⟩ := mid_move hkf' e2.mv (h.rts j buf u hc hu) hm
    unfold holdsR
    rw [e1, m1, m2]; simp
  -- a goroutine that transfers something of the piece
  have headOf : ∀ u, TS (pieceOf stream pl i).length kf u → (∃ k l rest, u.pc = .move k ∧ u.ls = l :: rest ∧ 0 < l.loc.readAmnt.toNat) →
      headPath (openedAll ti) u = some p ∧ u.pc.isMove = true ∧ u.pc.isBusy = true := by
    intro u hts ⟨k, l, rest, h1, h2, h3⟩
    refine ⟨?_, by rw [h1]; rfl, by rw [h1]; rfl⟩
    rcases hts.locs l (by rw [h2]; simp) with h0 | ⟨-, h0⟩
    · rw [h0] at h3; simp at h3
    · unfold headPath; rw [h2]; simp only; rw [h0, hkf']
  have hwl : w.length = (pieceOf stream pl i).length := by
    rcases h.whole with rfl | hw
    · rfl
    · exact hz.write i w hw
  cases hs with
  | mk j t t' sh' hj ht =>
    obtain ⟨hjl, -⟩ := List.getElem?_eq_some_iff.mp hj
    obtain ⟨c, hcj⟩ : ∃ c, calls[j]? = some c := ⟨_, List.getElem?_eq_getElem (by rw [← g.len]; exact hjl)⟩
    have hT := g.ths j c t hcj hj
    have hset : (s.ths.set j t')[j]? = some t' := by rw [List.getElem?_set, if_pos rfl, if_pos hjl]
    cases hT with
    | badRead x buf _ e hpc hb => cases ht <;> simp_all
    | badWrite x d spare _ e hpc hb => cases ht <;> simp_all
    | read k buf _ hk hw pos rest noErr got =>
      obtain ⟨cs1, d1, d2, d3, d4, d5, eff⟩ := effect hd g.disk pos ht
      have := onDisk_unique g'.disk d1
      subst this
      have hts' : k = i → TS (pieceOf stream pl i).length kf t' := by
        rintro rfl
        exact TStep.ts pos (h.rts j buf t hcj hj) ht
      have hlive : k = i ∨ ¬ ((∃ buf, calls[j]? = some (.read i buf)) ∨ ∃ d spare, calls[j]? = some (.write i d spare) ∧
          IsWrite H hashes ti.numPieces calls i d) := by
        by_cases hki : k = i
        · exact .inl hki
        · right
          rintro (⟨b', hb'⟩ | ⟨d, spare, hb', -⟩)
          · rw [hcj] at hb'
            simp only [Option.some.injEq, Call.read.injEq] at hb'
            omega
          · rw [hcj] at hb'; cases hb'
      cases eff with
      | silent h1 h2 h3 h4 =>
        subst h1
        refine ⟨w, h.same hj rfl ?_⟩
        intro hx
        rcases hlive with hki | hn
        · exact ⟨h4, h3, hts' hki⟩
        · exact absurd hx hn
      | failed hf h1 h2 h3 h4 h5 => cases hf
      | put m hm hx hwt h3 h4 h5 h1 h6 => rw [hw] at hwt; cases hwt
      | got m hm hx hwf h1 h2 h4 h5 h3 h6 =>
        subst h1
        rcases hlive with hki | hn
        · subst hki
          have hts := h.rts j buf t hcj hj
          obtain ⟨p1, p2, p3⟩ := headOf t hts hx
          have hR : holdsR (openedAll ti) p t = true := by unfold holdsR; rw [hw, p1, p2]; simp
          have noMid : ∀ (j : Nat) d spare u, calls[j]? = some (.write k d spare) → s.ths[j]? = some u →
              IsWrite H hashes ti.numPieces calls k d → ¬ Mid (pieceOf stream pl k).length u := by
            intro j' d spare u hc hu hiw hmid
            obtain ⟨m1, m2⟩ := midW j' d spare u hc hu hiw hmid
            have h0 := lk.excl p u (List.mem_of_getElem? hu) m1 m2
            have h1 := countP_ge (holdsR (openedAll ti) p) _ _ _ hj
            rw [← lk.rd p, hR, h0] at h1
            simp at h1
          have hpw := h.quiet noMid
          have hlp : (pieceOf cs'.flatten pl k).length = (pieceOf stream pl k).length := by rw [pieceOf_length, pieceOf_length, hl]
          have hrl : (range cs'.flatten (k * pl + prog t) m).length = m := range_length _ _ _ (by omega)
          have hfit := pos.fits
          -- the buffer so far
          have hbuf : ∀ o < prog t', t'.buf[o]? = (pieceOf cs'.flatten pl k)[o]? := by
            intro o ho
            rw [h3, getElem?_splice _ _ _ (by omega)]
            split
            · rename_i hlt
              rcases Nat.eq_zero_or_pos (prog t) with h0 | h0
              · omega
              · exact h.reading j buf t hcj hj ⟨h0, by omega⟩ o hlt
            · rw [if_pos (by omega), getElem?_range, if_pos (by omega), show k * pl + prog t + (o - prog t) = k * pl + o by omega,
                piece_byte _ _ _ _ (by omega)]
          refine ⟨w, h.whole, ?_, ?_, ?_, ?_, ?_, ?_⟩
          · intro j' b u hc hu
            rcases get_set hu with ⟨rfl, rfl⟩ | ⟨-, hu⟩
            · exact hts' rfl
            · exact h.rts j' b u hc hu
          · intro j' d spare u hc hu hiw
            rcases get_set hu with ⟨rfl, rfl⟩ | ⟨-, hu⟩
            · rw [hcj] at hc; cases hc
            · exact h.wts j' d spare u hc hu hiw
          · intro _; exact hpw
          · intro j' d spare u hc hu hiw hmid
            rcases get_set hu with ⟨rfl, rfl⟩ | ⟨-, hu⟩
            · rw [hcj] at hc; cases hc
            · exact absurd hmid (noMid j' d spare u hc hu hiw)
          · intro j' b u hc hu hmid
            rcases get_set hu with ⟨rfl, rfl⟩ | ⟨-, hu⟩
            · exact hbuf
            · exact h.reading j' b u hc hu hmid
          · intro j' b u hc hu hmid
            rcases get_set hu with ⟨rfl, rfl⟩ | ⟨-, hu⟩
            · have : u.buf.take (pieceOf stream pl k).length = w := by
                rw [← hpw]
                apply List.ext_getElem?
                intro o
                rcases Nat.lt_or_ge o (pieceOf stream pl k).length with hlt | hge
                · rw [List.getElem?_take_of_lt hlt, hbuf o (by omega)]
                · rw [List.getElem?_eq_none_iff.mpr (by rw [List.length_take]; omega), List.getElem?_eq_none_iff.mpr (by omega)]
              rw [this]; exact h.whole
            · exact h.read j' b u hc hu hmid
        · exact ⟨w, h.same hj rfl (fun hx => absurd hx hn)⟩
    | write k d spare _ hk hw pos data noErr put =>
      obtain ⟨cs1, d1, d2, d3, d4, d5, eff⟩ := effect hd g.disk pos ht
      have := onDisk_unique g'.disk d1
      subst this
      have hts' : k = i → TS (pieceOf stream pl i).length kf t' := by
        rintro rfl
        exact TStep.ts pos (h.wts j d spare t hcj hj hk) ht
      have hlive : k = i ∨ ¬ ((∃ buf, calls[j]? = some (.read i buf)) ∨ ∃ d spare, calls[j]? = some (.write i d spare) ∧
          IsWrite H hashes ti.numPieces calls i d) := by
        by_cases hki : k = i
        · exact .inl hki
        · right
          rintro (⟨b', hb'⟩ | ⟨d, spare, hb', -⟩)
          · rw [hcj] at hb'; cases hb'
          · rw [hcj] at hb'
            simp only [Option.some.injEq, Call.write.injEq] at hb'
            omega
      cases eff with
      | silent h1 h2 h3 h4 =>
        subst h1
        refine ⟨w, h.same hj rfl ?_⟩
        intro hx
        rcases hlive with hki | hn
        · exact ⟨h4, h3, hts' hki⟩
        · exact absurd hx hn
      | failed hf h1 h2 h3 h4 h5 => cases hf
      | got m hm hx hwf h1 h2 h4 h5 h3 h6 => rw [hw] at hwf; cases hwf
      | put m hm hx hwt h3 h4 h5 h1 h6 =>
        have hfit := pos.fits
        have hrl : (range t.buf (prog t) m).length = m := range_length _ _ _ (by omega)
        have hdl := hz.write k d hk
        have hcl : cs'.flatten.length = cs.flatten.length := by rw [h1, splice_length _ _ _ (by omega)]
        have hold : ∀ b, ¬ (k * pl + prog t ≤ b ∧ b < k * pl + prog t + m) → cs'.flatten[b]? = cs.flatten[b]? := by
          intro b hb
          rw [h1, getElem?_splice _ _ _ (by omega)]
          split
          · rfl
          · rw [if_neg (by omega)]
        have hnew : ∀ o, prog t ≤ o → o < prog t + m → cs'.flatten[k * pl + o]? = d[o]? := by
          intro o ho1 ho2
          rw [h1, getElem?_splice _ _ _ (by omega), if_neg (by omega), if_pos (by omega), getElem?_range, if_pos (by omega), data,
            List.getElem?_append_left (by omega)]
          congr 1; omega
        have hnp : (pieceOf stream pl k).length ≤ pl := by rw [pieceOf_length]; omega
        by_cases hki : k = i
        · subst hki
          have hts := h.wts j d spare t hcj hj hk
          obtain ⟨p1, p2, p3⟩ := headOf t hts hx
          have hW : holdsW (openedAll ti) p t = true := by unfold holdsW; rw [hw, p1, p3]; simp
          have h0 := lk.excl p t (List.mem_of_getElem? hj) hW p2
          have noR : ∀ (j : Nat) buf u, calls[j]? = some (.read k buf) → s.ths[j]? = some u → ¬ Mid (pieceOf stream pl k).length u := by
            intro j' buf u hc hu hmid
            have h1 := countP_ge (holdsR (openedAll ti) p) _ _ _ hu
            rw [← lk.rd p, midR j' buf u hc hu hmid, h0] at h1
            simp at h1
          have noW : ∀ (j' : Nat) d spare u, j' ≠ j → calls[j']? = some (.write k d spare) → s.ths[j']? = some u →
              IsWrite H hashes ti.numPieces calls k d → ¬ Mid (pieceOf stream pl k).length u := by
            intro j' d' spare' u hne hc hu hiw hmid
            exact hne (lk.unique p hu hj (midW j' d' spare' u hc hu hiw hmid).1 hW)
          have hlp : (pieceOf cs.flatten pl k).length = (pieceOf stream pl k).length := by rw [pieceOf_length, pieceOf_length, hl]
          have hlp' : (pieceOf cs'.flatten pl k).length = (pieceOf stream pl k).length := by rw [pieceOf_length, pieceOf_length, hcl, hl]
          -- the piece before and after
          have hbefore : pieceOf cs.flatten pl k = d.take (prog t) ++ w.drop (prog t) := by
            rcases Nat.eq_zero_or_pos (prog t) with hz0 | hpos
            · rw [hz0]
              simp only [List.take_zero, List.drop_zero, List.nil_append]
              apply h.quiet
              intro j' d' spare' u hc hu hiw hmid
              by_cases hjj : j' = j
              · subst hjj
                rw [hj] at hu; cases hu
                have := hmid.1
                omega
              · exact noW j' d' spare' u hjj hc hu hiw hmid
            · exact h.busy j d spare t hcj hj hk ⟨hpos, by omega⟩
          have hafter : pieceOf cs'.flatten pl k = d.take (prog t') ++ w.drop (prog t') := by
            apply List.ext_getElem?
            intro o
            rcases Nat.lt_or_ge o (pieceOf stream pl k).length with hlt | hge
            · rw [piece_byte _ _ _ _ (by omega)]
              rcases Nat.lt_or_ge o (prog t') with ho | ho
              · rw [List.getElem?_append_left (by rw [List.length_take]; omega), List.getElem?_take_of_lt ho]
                rcases Nat.lt_or_ge o (prog t) with ho' | ho'
                · rw [hold _ (by omega), ← piece_byte _ _ _ _ (by omega), hbefore,
                    List.getElem?_append_left (by rw [List.length_take]; omega), List.getElem?_take_of_lt ho']
                · exact hnew o ho' (by omega)
              · rw [hold _ (by omega), ← piece_byte _ _ _ _ (by omega), hbefore,
                  List.getElem?_append_right (by rw [List.length_take]; omega),
                  List.getElem?_append_right (by rw [List.length_take]; omega), List.getElem?_drop, List.getElem?_drop,
                  List.length_take, List.length_take]
                congr 1; omega
            · rw [List.getElem?_eq_none_iff.mpr (by omega), List.getElem?_eq_none_iff.mpr
                (by rw [List.length_append, List.length_take, List.length_drop]; omega)]
          refine ⟨if prog t' = (pieceOf stream pl k).length then d else w, ?_, ?_, ?_, ?_, ?_, ?_, ?_⟩
          · split
            · exact .inr hk
            · exact h.whole
          · intro j' b u hc hu
            rcases get_set hu with ⟨rfl, rfl⟩ | ⟨-, hu⟩
            · rw [hcj] at hc; cases hc
            · exact h.rts j' b u hc hu
          · intro j' d' spare' u hc hu hiw
            rcases get_set hu with ⟨rfl, rfl⟩ | ⟨-, hu⟩
            · exact hts' rfl
            · exact h.wts j' d' spare' u hc hu hiw
          · intro hq
            have hnm := hq j d spare t' hcj hset hk
            have : prog t' = (pieceOf stream pl k).length := by
              rcases Nat.lt_or_ge (prog t') (pieceOf stream pl k).length with hlt | hge
              · exact absurd ⟨by omega, hlt⟩ hnm
              · omega
            rw [if_pos this, hafter, this, List.take_of_length_le (by omega), List.drop_eq_nil_of_le (by omega), List.append_nil]
          · intro j' d' spare' u hc hu hiw hmid
            rcases get_set hu with ⟨rfl, rfl⟩ | ⟨hne, hu⟩
            · rw [hcj] at hc; cases hc
              rw [if_neg (by have := hmid.2; omega)]
              exact hafter
            · exact absurd hmid (noW j' d' spare' u hne hc hu hiw)
          · intro j' b u hc hu hmid
            rcases get_set hu with ⟨rfl, rfl⟩ | ⟨-, hu⟩
            · rw [hcj] at hc; cases hc
            · exact absurd hmid (noR j' b u hc hu)
          · intro j' b u hc hu hmid
            rcases get_set hu with ⟨rfl, rfl⟩ | ⟨-, hu⟩
            · rw [hcj] at hc; cases hc
            · exact h.read j' b u hc hu hmid
        · refine ⟨w, h.same hj ?_ (fun hx => absurd hx (hlive.resolve_left hki))⟩
          exact pieceOf_other cs.flatten cs'.flatten pl k i (k * pl + prog t) (k * pl + prog t + m) hki (by omega)
            (by rw [Nat.add_mul]; omega) hcl hold

/-- piece `i` of the files lies inside of one of them -/
def InOneFile (lns : List Nat) (pl i n : Nat) : Prop := ∃ kf, kf < lns.length ∧ startPos lns kf ≤ i * pl ∧ i * pl + n ≤ startPos lns (kf + 1)

/-- **C74**, partial: for a piece that lies in one file (and system calls that do not fail), reads and writes are atomic: a successful ReadPiece
delivers the piece as it was at the beginning, or the data of one of the writes, never a mixture; and when all calls have returned, the piece is one of
these as well.  Missing: pieces that belong to several files, see `C74_refuted_torn`. -/
theorem C74_whole_partial (H : Bytes → Bytes) (pl : Nat) (hashes : Bytes) (files : List EntryBase) (ti : TorInfo) (h : Accepted pl hashes files ti)
    (hd : (files.map EntryBase.localPath).Nodup) (fs : FS.State) (cs : List Bytes) (hs : Stored fs files cs) (calls : List Call)
    (hz : Sized H hashes ti.numPieces pl cs.flatten calls) (i : Nat) (hi : i < ti.numPieces)
    (hone : InOneFile (Files.lens files) pl i (pieceOf cs.flatten pl i).length) (s : St)
    (hr : Reach (Step (openedAll ti) false) (init H ti fs calls) s) :
    (∀ (j : Nat) (buf : Bytes) (t : Th) (n : Nat), calls[j]? = some (.read i buf) → s.ths[j]? = some t → t.pc = .done (.ok n) →
      ∃ w, t.buf = w ++ buf.drop n ∧ w.length = n ∧ (w = pieceOf cs.flatten pl i ∨ IsWrite H hashes ti.numPieces calls i w)) ∧
    (AllDone s → ∃ cs', Stored s.sh.fs files cs' ∧
      (pieceOf cs'.flatten pl i = pieceOf cs.flatten pl i ∨ IsWrite H hashes ti.numPieces calls i (pieceOf cs'.flatten pl i))) := by
  obtain ⟨kf, hkl, hk1, hk2⟩ := hone
  obtain ⟨locs, hlk, hcon⟩ := consec_end h hs.1 i hi
  obtain ⟨name, hmade⟩ := h.made
  have hsing := consec_single hcon (newTorInfo_ord name pl hashes files ti hmade i locs hlk) kf hk1 hk2
  rw [show i * pl + (pieceOf cs.flatten pl i).length - i * pl = (pieceOf cs.flatten pl i).length by omega] at hsing
  obtain ⟨e, -, he, -⟩ := (h.onDisk hs).get kf hkl
  have hkf : (ti.flist[kf]?).map (fun e => e.base.localPath) = some e.base.localPath := by
    have : ti.flist[kf]? = some e := he
    rw [this]; rfl
  have inv : ∃ cs' w, GInv H hashes pl files ti fs cs.flatten calls false s cs' ∧ cs'.flatten.length = cs.flatten.length ∧
      LInv (openedAll ti) s ∧ WInv H hashes ti.numPieces pl cs.flatten calls i kf s cs' w := by
    induction hr with
    | refl =>
      have g := start_ginv H h hs calls hz false
      refine ⟨cs, pieceOf cs.flatten pl i, g, rfl, start_linv H _ ti fs calls, .inl rfl, ?_, ?_, fun _ => rfl, ?_, ?_, ?_⟩
      · intro j buf t hc ht
        unfold init at ht; simp only at ht
        rw [List.getElem?_map, hc] at ht
        simp only [Option.map_some, Option.some.injEq] at ht
        subst ht
        unfold start startRead; simp only; rw [hlk]
        exact ⟨hsing, .inl rfl⟩
      · intro j d spare t hc ht hw
        unfold init at ht; simp only at ht
        rw [List.getElem?_map, hc] at ht
        simp only [Option.map_some, Option.some.injEq] at ht
        subst ht
        unfold start startWrite; simp only; rw [hlk, h.hash i hi]; simp only
        rw [if_neg (by simp [hw.2.1])]
        exact ⟨hsing, .inl rfl⟩
      · intro j d spare t hc ht hw hm
        unfold init at ht; simp only at ht
        rw [List.getElem?_map, hc] at ht
        simp only [Option.map_some, Option.some.injEq] at ht
        subst ht
        unfold start startWrite at hm; simp only at hm; rw [hlk, h.hash i hi] at hm; simp only at hm
        rw [if_neg (by simp [hw.2.1])] at hm
        exact absurd hm.1 (by simp [prog])
      · intro j buf t hc ht hm
        unfold init at ht; simp only at ht
        rw [List.getElem?_map, hc] at ht
        simp only [Option.map_some, Option.some.injEq] at ht
        subst ht
        unfold start startRead at hm; simp only at hm; rw [hlk] at hm
        exact absurd hm.1 (by simp [prog])
      · intro j buf t hc ht hm
        unfold init at ht; simp only at ht
        rw [List.getElem?_map, hc] at ht
        simp only [Option.map_some, Option.some.injEq] at ht
        subst ht
        unfold start startRead at hm ⊢; simp only at hm ⊢; rw [hlk] at hm ⊢
        simp only [prog] at hm
        left
        rw [← hm]
        simp only [List.take_zero]
        exact (List.eq_nil_of_length_eq_zero hm.symm).symm
    | tail s' s'' _ hstep ih =>
      obtain ⟨cs', w, g, hl, lk, wi⟩ := ih
      obtain ⟨cs'', g', hl'⟩ := g.step hd hz hl hstep
      obtain ⟨w', wi'⟩ := wi.step hd hz hl hi hkf g lk hstep g'
      exact ⟨cs'', w', g', hl', lk.step hstep, wi'⟩
  obtain ⟨cs', w, g, hl, lk, wi⟩ := inv
  constructor
  · intro j buf t n hc ht hpc
    obtain ⟨cs'', -, -, -, h4⟩ := C74_bytes H pl hashes files ti h hd fs cs hs calls hz false s hr
    obtain ⟨k, e1, -, e3, e4, -⟩ := h4 j i buf t n hc ht hpc
    have : k = i := by omega
    subst this
    obtain ⟨-, pos⟩ := (g.ths j _ t hc ht).readPos hi
    have hpr : prog t = (pieceOf cs.flatten pl k).length := by
      unfold prog; rw [hpc]
      rcases pos.fin _ hpc with ⟨e, he⟩ | ⟨-, ho⟩
      · cases he
      · exact ho
    have hw := wi.read j buf t hc ht hpr
    have hfit := pos.fits
    refine ⟨t.buf.take n, ?_, ?_, ?_⟩
    · rw [← e4, List.take_append_drop]
    · rw [List.length_take]; omega
    · rw [e3]; exact hw
  · intro hall
    refine ⟨cs', ⟨g.disk.lens, fun k f c hf hc => (g.disk.disk k f c hf hc).1⟩, ?_⟩
    have : pieceOf cs'.flatten pl i = w := by
      apply wi.quiet
      intro j d spare t hc ht hw hm
      obtain ⟨r, hpc⟩ := hall t (List.mem_of_getElem? ht)
      obtain ⟨m1, -⟩ := mid_move (fio := openedAll ti) hkf ((g.ths j _ t hc ht).writePos hw).2.1.mv (wi.wts j d spare t hc ht hw) hm
      rw [hpc] at m1; cases m1
    rw [this]; exact wi.whole

/-- piece 1 of the example crosses two files, piece 2 lies in the last one -/
example : InOneFile (Files.lens exFiles) 4 2 (pieceOf exContents.flatten 4 2).length ∧
    ¬ InOneFile (Files.lens exFiles) 4 1 (pieceOf exContents.flatten 4 1).length := by
  constructor
  · exact ⟨2, by decide⟩
  · rintro ⟨kf, h1, h2, h3⟩
    have : kf < 3 := h1
    match kf with
    | 0 => revert h3; decide
    | 1 => revert h3; decide
    | 2 => revert h2; decide
    | k + 3 => omega

/-! ### A torn read -/

/-- two files of one byte -/
def tornFiles : List EntryBase := [MakeFileEntry (ascii "a") 1, MakeFileEntry (ascii "b") 1]

/-- both are zero -/
def tornDisk : FS.State := fun p => if p = ascii "a" then some [0] else if p = ascii "b" then some [0] else none

/-- one goroutine reads the only piece, another one writes it -/
def tornCalls : List Call := [.read 0 [7, 7], .write 0 [1, 1] []]

/-- the torrent with piece length 2 -/
def tornTi (hash : Bytes) : TorInfo :=
  ⟨ascii "t", 2, hash, 1, 2, [⟨MakeFileEntry (ascii "a") 1, 0, 0, 0, 0⟩, ⟨MakeFileEntry (ascii "b") 1, 0, 0, 1, 1⟩], false,
    [[⟨0, 0, 1⟩, ⟨1, 0, 1⟩]], 2⟩

theorem tornTi_made (hash : Bytes) (h : hash.length = 20) : NewTorInfo (ascii "t") 2 hash tornFiles = .ok (tornTi hash) := by
  unfold NewTorInfo tornTi
  rw [h]
  rfl

/-- a goroutine reads its part of a file in one go -/
theorem read_part {fio : FileIO} {s0 s : St} (hr : Reach (Step fio false) s0 s) (j : Nat) (buf : Bytes) (k n off : Nat) (rest : List PieceLocation)
    (e : Entry) (c : Bytes) (hj : s.ths[j]? = some ⟨false, buf, ⟨k, 0, n⟩ :: rest, off, .top⟩) (he : fio.torInfo.flist[k]? = some e)
    (ho : e.base.localPath ∈ fio.opened) (hw : s.sh.writer e.base.localPath = false) (hc : s.sh.fs e.base.localPath = some c)
    (h0 : 0 < n) (h1 : n ≤ c.length) (h2 : off + n ≤ buf.length) :
    Reach (Step fio false) s0 ⟨s.sh, s.ths.set j ⟨false, overwrite buf off (c.take n), rest, off + n, .top⟩⟩ := by
  obtain ⟨hjl, -⟩ := List.getElem?_eq_some_iff.mp hj
  have r1 := hr.tail _ _ (.mk _ j _ _ _ hj (.rlock _ _ _ _ e rfl rfl ⟨by simp only; omega, by simp only; omega⟩ he ho rfl hw))
  have r2 := r1.tail _ _ (.mk _ j _ _ _ (by simp only; rw [List.getElem?_set, if_pos rfl, if_pos hjl])
    (.get _ _ _ _ e 0 n c rfl rfl he rfl hc (by simp) h0 (by simp) (by simpa using h1)))
  have r3 := r2.tail _ _ (.mk _ j _ _ _ (by simp only; rw [List.getElem?_set, if_pos rfl, if_pos (by rw [List.length_set]; exact hjl)])
    (.release _ _ _ _ e n c (by simp) rfl he hc (by simp) (by simp)))
  simp only [List.set_set, Shared.release, Shared.runlock, Shared.rlock, Bool.false_eq_true, if_false, Int.toNat_natCast, Int.toNat_zero, Nat.add_zero,
    List.drop_zero] at r3
  have : (fun q => if q = e.base.localPath then (if q = e.base.localPath then s.sh.readers q + 1 else s.sh.readers q) - 1 else
      (if q = e.base.localPath then s.sh.readers q + 1 else s.sh.readers q)) = s.sh.readers := by
    funext q; split <;> simp_all
  rw [this] at r3
  exact r3

/-- a goroutine writes its part of a file in one go -/
theorem write_part {fio : FileIO} {s0 s : St} (hr : Reach (Step fio false) s0 s) (j : Nat) (buf : Bytes) (k n off : Nat) (rest : List PieceLocation)
    (e : Entry) (c : Bytes) (hj : s.ths[j]? = some ⟨true, buf, ⟨k, 0, n⟩ :: rest, off, .top⟩) (he : fio.torInfo.flist[k]? = some e)
    (ho : e.base.localPath ∈ fio.opened) (hw : s.sh.writer e.base.localPath = false) (hr0 : s.sh.readers e.base.localPath = 0)
    (hc : s.sh.fs e.base.localPath = some c) (h0 : 0 < n) (h2 : off + n ≤ buf.length) :
    Reach (Step fio false) s0 ⟨{ s.sh with fs := s.sh.fs.set e.base.localPath (writeAt c 0 ((buf.drop off).take n)) },
      s.ths.set j ⟨true, buf, rest, off + n, .top⟩⟩ := by
  obtain ⟨hjl, -⟩ := List.getElem?_eq_some_iff.mp hj
  have r1 := hr.tail _ _ (.mk _ j _ _ _ hj (.announce _ _ _ _ e rfl rfl ⟨by simp only; omega, by simp only; omega⟩ he ho rfl hw))
  have r2 := r1.tail _ _ (.mk _ j _ _ _ (by simp only; rw [List.getElem?_set, if_pos rfl, if_pos hjl])
    (.lock _ _ _ _ e rfl rfl he hr0))
  have r3 := r2.tail _ _ (.mk _ j _ _ _ (by simp only; rw [List.getElem?_set, if_pos rfl, if_pos (by rw [List.length_set]; exact hjl)])
    (.put _ _ _ _ e 0 n c rfl rfl he rfl hc (by simp) h0 (by simp)))
  have r4 := r3.tail _ _ (.mk _ j _ _ _ (by simp only; rw [List.getElem?_set, if_pos rfl, if_pos (by simp only [List.length_set]; exact hjl)])
    (.release _ _ _ _ e n (writeAt c 0 ((buf.drop off).take n)) (by simp) rfl he (by simp [FS.State.set]) (by simp) (by simp)))
  simp only [List.set_set, Shared.release, Shared.unlock, Shared.announce, if_true, Int.toNat_natCast, Int.toNat_zero, Nat.add_zero] at r4
  have : (fun q => if q = e.base.localPath then false else (if q = e.base.localPath then true else s.sh.writer q)) = s.sh.writer := by
    funext q; split <;> simp_all
  rw [this] at r4
  exact r4

/-- **C74**, refuted for pieces that belong to several files: the locks are those of single files, so a write can come between the two parts
of a read.  Here the piece is `00` on disk and a valid write of `11` is made; the read succeeds with `01`, which the piece never was. -/
theorem C74_refuted_torn (H : Bytes → Bytes) (hH : (H [1, 1]).length = 20) :
    ∃ ti s t, Accepted 2 (H [1, 1]) tornFiles ti ∧ (tornFiles.map EntryBase.localPath).Nodup ∧ Stored tornDisk tornFiles [[0], [0]] ∧
      Sized H (H [1, 1]) ti.numPieces 2 [0, 0] tornCalls ∧
      Reach (Step (openedAll ti) false) (init H ti tornDisk tornCalls) s ∧ s.ths[0]? = some t ∧ t.pc = .done (.ok 2) ∧ t.buf = [0, 1] ∧
      AllDone s ∧ ∀ d, IsWrite H (H [1, 1]) ti.numPieces tornCalls 0 d → d = [1, 1] := by
  have hi : init H (tornTi (H [1, 1])) tornDisk tornCalls =
      ⟨⟨tornDisk, fun _ => 0, fun _ => false⟩, [⟨false, [7, 7], [⟨0, 0, 1⟩, ⟨1, 0, 1⟩], 0, .top⟩,
        ⟨true, [1, 1], [⟨0, 0, 1⟩, ⟨1, 0, 1⟩], 0, .top⟩]⟩ := by
    have hp : (tornTi (H [1, 1])).PieceHash 0 = .ok (H [1, 1]) := by
      unfold TorInfo.PieceHash
      rw [if_neg (by simp [tornTi, hH])]
      simp only [tornTi, Int.zero_mul, Int.toNat_zero, List.drop_zero]
      rw [List.take_of_length_le (by omega)]
    have hl : (tornTi (H [1, 1])).PieceLookup 0 = .ok [⟨0, 0, 1⟩, ⟨1, 0, 1⟩] := rfl
    unfold init
    simp only [tornCalls, List.map_cons, List.map_nil, start, startRead, startWrite, hp, hl]
    rw [if_neg (by simp)]
    rfl
  have a : ascii "a" ≠ ascii "b" := by decide
  have hs : Stored tornDisk tornFiles [[0], [0]] := by
    refine ⟨rfl, ?_⟩
    intro k f c hf hc
    match k with
    | 0 => cases hf; cases hc; decide
    | 1 => cases hf; cases hc; decide
    | k + 2 => simp at hc
  have ea : (openedAll (tornTi (H [1, 1]))).torInfo.flist[0]? = some ⟨MakeFileEntry (ascii "a") 1, 0, 0, 0, 0⟩ := rfl
  have eb : (openedAll (tornTi (H [1, 1]))).torInfo.flist[1]? = some ⟨MakeFileEntry (ascii "b") 1, 0, 0, 1, 1⟩ := rfl
  have oa : (MakeFileEntry (ascii "a") 1).localPath ∈ (openedAll (tornTi (H [1, 1]))).opened := List.mem_cons_self ..
  have ob : (MakeFileEntry (ascii "b") 1).localPath ∈ (openedAll (tornTi (H [1, 1]))).opened :=
    List.mem_cons_of_mem _ (List.mem_cons_self ..)
  have r0 : Reach (Step (openedAll (tornTi (H [1, 1]))) false) (init H (tornTi (H [1, 1])) tornDisk tornCalls) ⟨⟨tornDisk, fun _ => 0, fun _ => false⟩,
      [⟨false, [7, 7], [⟨0, 0, 1⟩, ⟨1, 0, 1⟩], 0, .top⟩, ⟨true, [1, 1], [⟨0, 0, 1⟩, ⟨1, 0, 1⟩], 0, .top⟩]⟩ := by rw [hi]; exact .refl
  -- the first half of the read
  have r1 := read_part r0 0 [7, 7] 0 1 0 [⟨1, 0, 1⟩] _ [0] rfl ea oa rfl rfl (by decide) (by decide) (by decide)
  -- the write
  have r2 := write_part r1 1 [1, 1] 0 1 0 [⟨1, 0, 1⟩] _ [0] rfl ea oa rfl rfl rfl (by decide) (by decide)
  have r3 := write_part r2 1 [1, 1] 1 1 1 [] _ [0] rfl eb ob rfl rfl rfl (by decide) (by decide)
  have r4 := r3.tail _ _ (.mk _ 1 _ _ _ rfl (.finish _ _ rfl rfl))
  -- the second half of the read
  have r5 := read_part r4 0 [0, 7] 1 1 1 [] _ [1] rfl eb ob rfl rfl (by decide) (by decide) (by decide)
  have r7 := r5.tail _ _ (.mk _ 0 _ _ _ rfl (.finish _ _ rfl rfl))
  refine ⟨tornTi (H [1, 1]), _, _, ⟨by decide, ?_, ascii "t", tornTi_made _ hH⟩, by decide, hs, ?_, r7, rfl, rfl, rfl, ?_, ?_⟩
  · intro f hf
    simp only [tornFiles, List.mem_cons, List.mem_nil_iff, or_false] at hf
    rcases hf with rfl | rfl <;> decide
  · constructor
    · rintro i d ⟨h1, -, spare, h3⟩
      simp only [tornCalls, List.mem_cons, Call.write.injEq, List.mem_nil_iff, or_false, reduceCtorEq, false_or] at h3
      obtain ⟨h, rfl, -⟩ := h3
      have : i = 0 := by omega
      subst this; decide
    · intro i buf hb _
      simp only [tornCalls, List.mem_cons, Call.read.injEq, List.mem_nil_iff, or_false, reduceCtorEq] at hb
      obtain ⟨h, rfl⟩ := hb
      have : i = 0 := by omega
      subst this; decide
  · intro t ht
    simp only [List.set_cons_zero, List.set_cons_succ, List.mem_cons, List.mem_nil_iff, or_false] at ht
    rcases ht with rfl | rfl <;> exact ⟨_, rfl⟩
  · rintro d ⟨-, -, spare, h3⟩
    simp only [tornCalls, List.mem_cons, Call.write.injEq, List.mem_nil_iff, or_false, reduceCtorEq, false_or] at h3
    exact h3.2.1

end Verif.FileConc
