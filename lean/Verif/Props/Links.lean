import Verif.Lemmas.LinksPath
import Verif.Lemmas.LinksFlat
import Verif.Props.Paths
import Verif.Props.FileIO
/-
Property C125: symbolic links.
-/
set_option autoImplicit false

namespace Verif.Links
open Verif.LinksSpec Verif.Dirs Verif.FS Verif.FileIO Verif.Path Verif.Files Verif.Bencode Verif.Torrent Verif.Info

/-! ### what is changed -/

/-- **C125**, what preparing the files of a torrent changes, with links of any kind, whatever fails and wherever the process dies: nothing is deleted and no link is changed or made; a place
that has changed is a new directory on the way to one of the files, or the file that the path of one of the files leads to. -/
theorem C125_only (sp : Bool) (cwd : Place) (es : List Entry) (t t' : Tree) (o : Outcome) (hp : Proper cwd t) (h : LinkExec sp cwd (OCATAll es) t o t') (q : Place) (hq : t' q ≠ t q) :
    (t q = none ∧ t' q = some .dir ∧ ∃ e ∈ es, ∃ as bs, (components e.base.localPath).dropLast = as ++ bs ∧ follow t' 40 (start cwd e.base.localPath) as = some q) ∨
    ((t q = none ∨ ∃ c, t q = some (.file c)) ∧ (∃ c, t' q = some (.file c)) ∧ ∃ e ∈ es, real t' cwd e.base.localPath = some q) := by
  rcases exec_changes (ps := es.map fun e => e.base.localPath) h hp (uses_all es fun e he => List.mem_map.mpr ⟨e, he, rfl⟩) q with e | ⟨h1, h2, p, hm, h3⟩ | ⟨h1, h2, p, hm, h3⟩
  · exact absurd e hq
  · obtain ⟨e, he, rfl⟩ := List.mem_map.mp hm
    exact .inl ⟨h1, h2, e, he, h3⟩
  · obtain ⟨e, he, rfl⟩ := List.mem_map.mp hm
    exact .inr ⟨h1, h2, e, he, h3⟩

/-- **C125**: there are directories on the way to everything afterwards, too, and every path that led somewhere leads there still. -/
theorem C125_stable (sp : Bool) (cwd : Place) (es : List Entry) (t t' : Tree) (o : Outcome) (hp : Proper cwd t) (h : LinkExec sp cwd (OCATAll es) t o t') :
    Proper cwd t' ∧ ∀ p q, real t cwd p = some q → real t' cwd p = some q := by
  obtain ⟨g, hp'⟩ := exec_grows h hp
  exact ⟨hp', fun p q e => real_mono g e⟩

/-- **C125**, without links a path leads where its names say (the `resolve` of C34). -/
theorem C125_no_links (cwd : Place) (t : Tree) (hl : NoLinks t) (p : Bytes) (q : Place) (h : real t cwd p = some q) : q = resolve cwd p := by
  rw [follow_walk hl h]
  rfl

/-! ### below the working directory -/

/-- the elements of the local paths of a torrent -/
theorem local_elems (d : Dict) (wd : Bytes) (hwd : wd ≠ []) (ti : TorInfo) (h : FromDict d wd = .ok ti) :
    ∀ e ∈ ti.flist, ∃ p, e.base.localPath = Clean p ∧ rooted p = rooted wd ∧
      cleanElems p = (cleanLoop (rooted wd) (stepsTo d ti.name e.base.torPath) (cleanElems wd).reverse).reverse := by
  have one : ∀ n : Bytes, ∃ p, Join wd n = Clean p ∧ rooted p = rooted wd ∧ cleanElems p = (cleanLoop (rooted wd) (components n) (cleanElems wd).reverse).reverse := by
    intro n
    obtain ⟨h1, h2⟩ := cleanElems_join wd n hwd
    exact ⟨wd ++ 47 :: n, if_pos hwd, h1, by rw [h2, components_eq]⟩
  have two : ∀ n b : Bytes, ∃ p, Join (Join wd n) b = Clean p ∧ rooted p = rooted wd ∧ cleanElems p = (cleanLoop (rooted wd) (components n ++ components b) (cleanElems wd).reverse).reverse := by
    intro n b
    obtain ⟨p, e1, e2, e3⟩ := one n
    have hne := join_ne_nil wd n hwd
    obtain ⟨h1, h2⟩ := cleanElems_join (Join wd n) b hne
    refine ⟨Join wd n ++ 47 :: b, if_pos hne, by rw [h1, e1, rooted_clean, e2], ?_⟩
    rw [h2, e1, rooted_clean, cleanElems_clean, e2, e3, List.reverse_reverse, cleanLoop_append, components_eq b]
  obtain ⟨n, p, ps, fes, h1, h2, h3, h4, h5⟩ := fromDict_ok h
  obtain ⟨g1, -, -, -, -, g6⟩ := newTorInfo_fields h5
  intro e he
  have hmem : e.base ∈ fes := by rw [← g6]; exact List.mem_map_of_mem he
  unfold stepsTo
  rw [g1]
  unfold entriesOf at h4
  have multi : ∀ er, Dict.getInt d (ascii "length") = .err er → ∃ b, e.base.localPath = Join (Join wd n) b ∧ e.base.torPath = b := by
    intro er hint
    rw [hint] at h4
    simp only at h4
    cases hf : Dict.getList d (ascii "files") with
    | ok vs =>
      rw [hf] at h4
      simp only at h4
      obtain ⟨es, -, h4⟩ := Res.bind_eq_ok.mp h4
      simp only [Res.ok.injEq] at h4
      rw [← h4] at hmem
      obtain ⟨b, -, hb⟩ := List.mem_map.mp hmem
      rw [← hb]
      exact ⟨_, rfl, rfl⟩
    | _ => rw [hf] at h4; cases h4
  cases hl : d.lookup (ascii "length") with
  | none =>
    obtain ⟨b, e1, e2⟩ := multi .missingKey (by simp only [Dict.getInt, Dict.get, hl])
    rw [e1, e2]
    exact two n b
  | some v =>
    by_cases hv : ∃ i, v = .int64 i
    · obtain ⟨i, rfl⟩ := hv
      have hint : Dict.getInt d (ascii "length") = .ok i := by simp only [Dict.getInt, Dict.get, hl]
      rw [hint] at h4
      simp only [Res.ok.injEq] at h4
      rw [← h4, List.mem_singleton] at hmem
      rw [hmem]
      exact one n
    · have hint : ∃ er, Dict.getInt d (ascii "length") = .err er := by
        simp only [Dict.getInt, Dict.get, hl]
        cases v <;> first | exact ⟨_, rfl⟩ | exact absurd ⟨_, rfl⟩ hv
      obtain ⟨er, hint⟩ := hint
      obtain ⟨b, e1, e2⟩ := multi er hint
      rw [e1, e2]
      cases v <;> first | exact two n b | exact absurd ⟨_, rfl⟩ hv

/-- **C125** for a working directory below which there are no links, and metadata whose names never lead above it: everything that preparing the files changes is below the working
directory, even if the way to it leads through links.  Missing: links below it (`C125_refuted_outside`). -/
theorem C125_inside_partial (sp : Bool) (cwd : Place) (d : Dict) (wd : Bytes) (hwd : wd ≠ []) (ti : TorInfo) (h : FromDict d wd = .ok ti) (t t' : Tree) (o : Outcome) (hp : Proper cwd t)
    (w : Place) (hw : real t cwd (Clean wd) = some w) (hdir : t w = some .dir) (hl : ∀ q l, Below w q → t q ≠ some (.link l))
    (hs : ∀ e ∈ ti.flist, Stays 0 (stepsTo d ti.name e.base.torPath)) (hx : LinkExec sp cwd (OCATAll ti.flist) t o t') (q : Place) (hq : t' q ≠ t q) : Below w q := by
  obtain ⟨g, hp'⟩ := exec_grows hx hp
  have hl' : ∀ x l, Below w x → t' x ≠ some (.link l) := fun x l hb e => hl x l hb (g.new _ _ e)
  have elems : ∀ e ∈ ti.flist, ∃ skip ds, components e.base.localPath = skip ++ (cleanElems wd ++ ds) ∧ (∀ w ∈ skip, w = [] ∨ w = [46]) ∧ (∀ x ∈ ds, Name x) ∧
      start cwd e.base.localPath = start cwd wd := by
    intro e he
    obtain ⟨p, e1, e2, e3⟩ := local_elems d wd hwd ti h e he
    obtain ⟨skip, e4, hsk⟩ := split_clean p
    have hns : ∀ w ∈ stepsTo d ti.name e.base.torPath, (47 : UInt8) ∉ w := by
      unfold stepsTo
      simp only [components_eq]
      intro x hx
      split at hx
      · exact splitSlash_noslash _ x hx
      · rcases List.mem_append.mp hx with hx | hx <;> exact splitSlash_noslash _ x hx
    obtain ⟨ds, e5, hds⟩ := cleanLoop_stays (rooted wd) (cleanElems wd).reverse _ [] hns nofun (hs e he)
    refine ⟨skip, ds.reverse, ?_, hsk, fun x hx => hds x (List.mem_reverse.mp hx), ?_⟩
    · rw [List.nil_append] at e5
      rw [components_eq, e1, e4, e3, e5, List.reverse_append, List.reverse_reverse]
    · rw [e1, start_clean]
      unfold rooted at e2
      unfold start
      by_cases h1 : p.head? = some 47 <;> by_cases h2 : wd.head? = some 47 <;> simp_all
  have dots : ∀ ds : List Bytes, (∀ x ∈ ds, Name x) → ascii ".." ∉ ds := fun ds hds hm => (hds _ hm).2.2.1 rfl
  rw [real_clean] at hw
  rcases C125_only sp cwd ti.flist t t' o hp hx q hq with ⟨h1, h2, e, he, as, bs, h3, h4⟩ | ⟨h1, h2, e, he, h3⟩
  · obtain ⟨skip, ds, e1, hsk, hds, hst⟩ := elems e he
    rw [hst] at h4
    have hpre : as <+: skip ++ (cleanElems wd ++ ds) := by
      rw [← e1]
      exact ⟨bs ++ (components e.base.localPath).drop ((components e.base.localPath).length - 1), by
        rw [← List.append_assoc, ← h3, List.dropLast_eq_take, List.take_append_drop]⟩
    have hskip : ∀ as' : List Bytes, as' <+: skip → follow t' 40 (start cwd wd) as' = some (start cwd wd) := by
      intro as' ⟨r, hr⟩
      have := follow_skips t' 40 (start cwd wd) as' [] fun x hx => hsk x (by rw [← hr]; exact List.mem_append_left _ hx)
      rwa [List.append_nil, follow_nil] at this
    have old : ∀ as' bs', as' ++ bs' = cleanElems wd → follow t' 40 (start cwd wd) as' ≠ some q := by
      intro as' bs' e' hf
      rw [← e'] at hw
      obtain ⟨m, v, -, h5, h6, h7⟩ := follow_split_dir hp hw (start_dir hp wd)
      have := follow_mono g h5
      rw [hf] at this
      cases this
      rcases h7 with h7 | rfl
      · rw [h1] at h7; cases h7
      · rw [follow_nil] at h6
        cases h6
        rw [h1] at hdir; cases hdir
    obtain ⟨r, hr⟩ := hpre
    rcases List.append_eq_append_iff.mp hr with ⟨x, hx1, hx2⟩ | ⟨x, hx1, hx2⟩
    · -- within the skipped part
      rw [hskip as ⟨x, hx1.symm⟩] at h4
      cases h4
      rw [start_dir hp wd] at h1
      cases h1
    · rw [hx1, follow_skips _ _ _ _ _ hsk] at h4
      rcases List.append_eq_append_iff.mp hx2.symm with ⟨y, hy1, hy2⟩ | ⟨y, hy1, hy2⟩
      · exact absurd h4 (old x y hy1.symm)
      · rw [hy1] at h4
        obtain ⟨m, v, -, h5, h6⟩ := follow_split h4
        rw [follow_mono g hw] at h5
        cases h5
        refine follow_names h6 w ⟨[], by simp⟩ (fun hm => dots ds hds ?_) hl'
        rw [hy2]
        exact List.mem_append_left _ hm
  · obtain ⟨skip, ds, e1, hsk, hds, hst⟩ := elems e he
    unfold real at h3
    rw [hst, e1, follow_skips _ _ _ _ _ hsk] at h3
    obtain ⟨m, v, -, h5, h6⟩ := follow_split h3
    rw [follow_mono g hw] at h5
    cases h5
    exact follow_names h6 w ⟨[], by simp⟩ (dots ds hds) hl'

/-! ### as without links -/

/-- **C125** for links whose targets have `..` only in front, and paths that lead to different places: preparing the files does to their contents just what it does without links, so that
everything proved about that (C28, C29) holds.  Missing: two paths that lead to the same place (`C125_refuted_shared`). -/
theorem C125_same_partial (sp : Bool) (cwd : Place) (es : List Entry) (t t' : Tree) (o : Outcome) (hp : Proper cwd t) (h : LinkExec sp cwd (OCATAll es) t o t')
    (hl : TidyLinks t) (ht : ∀ e ∈ es, Tidy (components e.base.localPath))
    (ha : ∀ e ∈ es, ∀ e' ∈ es, ∀ q, real t' cwd e.base.localPath = some q → real t' cwd e'.base.localPath = some q → e.base.localPath = e'.base.localPath) :
    Exec sp (OCATAll es) (seen (es.map fun e => e.base.localPath) cwd t) o (seen (es.map fun e => e.base.localPath) cwd t') := by
  obtain ⟨g, hp'⟩ := exec_grows h hp
  have hap : Apart (es.map fun e => e.base.localPath) cwd t' := by
    intro p hp p' hp' q h1 h2
    obtain ⟨e, he, rfl⟩ := List.mem_map.mp hp
    obtain ⟨e', he', rfl⟩ := List.mem_map.mp hp'
    exact ha e he e' he' q h1 h2
  have hs : Settled (es.map fun e => e.base.localPath) t' cwd t := by
    intro p hm q c h1 h2
    obtain ⟨e, he, rfl⟩ := List.mem_map.mp hm
    exact follow_settled hp g hl h1 h2 (start_dir hp _) (ht e he)
  have := exec_flat h hp (uses_all es fun e he => List.mem_map.mpr ⟨e, he, rfl⟩) hap hs
  rw [seen_eq g hs, seen_eq (.refl t') fun p _ q c h1 _ => h1] at this
  exact this

/-- **C125**, in particular: if the files are prepared successfully, the path of each leads to a file of the recorded length with the contents of before, cut off or filled up with zeros. -/
theorem C125_prepared_partial (cwd : Place) (es : List Entry) (hn : ∀ e ∈ es, 0 ≤ e.base.length) (hd : (es.map fun e => e.base.localPath).Nodup) (t t' : Tree) (hp : Proper cwd t)
    (h : LinkExec false cwd (OCATAll es) t (.done (.ok ())) t') (hl : TidyLinks t) (ht : ∀ e ∈ es, Tidy (components e.base.localPath))
    (ha : ∀ e ∈ es, ∀ e' ∈ es, ∀ q, real t' cwd e.base.localPath = some q → real t' cwd e'.base.localPath = some q → e.base.localPath = e'.base.localPath) :
    ∀ e ∈ es, ∃ c, content t' cwd e.base.localPath = some c ∧ (c.length : Int) = e.base.length ∧
      (∀ o, content t cwd e.base.localPath = some o → c.take o.length = o.take e.base.length.toNat ∧ ∀ x ∈ c.drop o.length, x = 0) ∧
      (content t cwd e.base.localPath = none → ∀ x ∈ c, x = 0) := by
  intro e he
  have hx := C125_same_partial false cwd es t t' _ hp h hl ht ha
  obtain ⟨-, -, h3, -⟩ := ocatAll_end es hn hd _ _ _ hx
  have hm : e.base.localPath ∈ es.map fun e => e.base.localPath := List.mem_map.mpr ⟨e, he, rfl⟩
  have h3 := h3 rfl e he
  have hlen := hn e he
  have seen_at : ∀ t, seen (es.map fun e => e.base.localPath) cwd t e.base.localPath = content t cwd e.base.localPath := fun t => if_pos hm
  rw [seen_at] at h3
  refine ⟨_, h3, by rw [prepared_length]; omega, ?_, ?_⟩
  · intro o ho
    have : old (seen (es.map fun e => e.base.localPath) cwd t) e.base.localPath = o := by unfold old; rw [seen_at, ho]; rfl
    rw [this]
    unfold prepared
    rcases Nat.le_total e.base.length.toNat o.length with hle | hle
    · rw [show e.base.length.toNat - o.length = 0 by omega]
      simp only [List.replicate_zero, List.append_nil]
      constructor
      · rw [List.take_of_length_le (by rw [List.length_take]; omega)]
      · rw [List.drop_eq_nil_of_le (by rw [List.length_take]; omega)]; simp
    · rw [List.take_of_length_le hle]
      constructor
      · rw [List.take_left]
      · rw [List.drop_left]
        intro x hx; exact (List.mem_replicate.mp hx).2
  · intro ho x hx
    have : old (seen (es.map fun e => e.base.localPath) cwd t) e.base.localPath = [] := by unfold old; rw [seen_at, ho]; rfl
    rw [this] at hx
    unfold prepared at hx
    simp only [List.take_nil, List.nil_append] at hx
    exact (List.mem_replicate.mp hx).2

/-! ### counterexamples and examples -/

/-- what matters of a loaded torrent, as a test that can be evaluated -/
def loaded (r : Res TorInfo) : Option (Bytes × List (Bytes × Int × Bytes)) :=
  match r with
  | .ok ti => some (ti.name, ti.flist.map fun e => (e.base.localPath, e.base.length, e.base.torPath))
  | _ => none

theorem loaded_some {r : Res TorInfo} {n : Bytes} {l : List (Bytes × Int × Bytes)} (h : loaded r = some (n, l)) :
    ∃ ti, r = .ok ti ∧ ti.name = n ∧ ti.flist.map (fun e => (e.base.localPath, e.base.length, e.base.torPath)) = l := by
  cases r <;> simp [loaded] at h
  exact ⟨_, rfl, h.1, h.2⟩

theorem proper_ofList (l : List (Place × Node)) (cwd : Place) (h : ∀ x ∈ l, ∀ k, k < x.1.length → ofList l (x.1.take k) = some .dir) (h0 : ofList l [] = some .dir) (h1 : ofList l cwd = some .dir) :
    Proper cwd (ofList l) := by
  refine ⟨fun q r hr hx => ?_, h0, h1⟩
  cases e : l.find? (fun x => x.1 == q ++ r) with
  | none => simp [ofList, e] at hx
  | some x =>
    have hm := List.mem_of_find?_eq_some e
    have hq : x.1 = q ++ r := by simpa using List.find?_some e
    have := h x hm q.length (by rw [hq]; have := List.length_pos_iff.mpr hr; rw [List.length_append]; omega)
    rwa [hq, List.take_left] at this

/-- the directory of the torrent, in the working directory, is a link to /e -/
def exOut : List (Place × Node) :=
  [([], .dir), ([ascii "w"], .dir), ([ascii "w", ascii "n"], .link (ascii "/e")), ([ascii "e"], .dir), ([ascii "e", ascii "f"], .file [1, 2, 3])]

/-- **C125** is false: although the names of the torrent lead below the working directory, preparing its files cuts off a file elsewhere, when a link leads there. -/
theorem C125_refuted_outside : ∃ (d : Dict) (ti : TorInfo) (t t' : Tree) (w q : Place), FromDict d (ascii "/w") = .ok ti ∧ (∀ e ∈ ti.flist, Stays 0 (stepsTo d ti.name e.base.torPath)) ∧
    Proper [] t ∧ real t [] (ascii "/w") = some w ∧ t w = some .dir ∧ LinkExec false [] (OCATAll ti.flist) t (.done (.ok ())) t' ∧ ¬ Below w q ∧
    t q = some (.file [1, 2, 3]) ∧ t' q = some (.file [1]) := by
  obtain ⟨ti, h, hn, hp⟩ := loaded_some (r := FromDict (multiInfo (ascii "n") (ascii "AAAAAAAAAAAAAAAAAAAA") 4 [(1, [ascii "f"])]) (ascii "/w")) (n := ascii "n")
    (l := [(ascii "/w/n/f", 1, ascii "f")]) (by decide +kernel)
  obtain ⟨e, tl, he, hl, htl⟩ := List.map_eq_cons_iff.mp hp
  obtain rfl := List.map_eq_nil_iff.mp htl
  simp only [Prod.mk.injEq] at hl
  obtain ⟨hl1, hl2, hl3⟩ := hl
  refine ⟨_, ti, ofList exOut, (ofList exOut).set [ascii "e", ascii "f"] (.file [1]), [ascii "w"], [ascii "e", ascii "f"], h, ?_, proper_ofList _ _ ?_ (by decide +kernel) (by decide +kernel),
    by decide +kernel, by decide +kernel, ?_, ?_, by decide +kernel, by decide +kernel⟩
  · intro x hx
    rw [he, List.mem_singleton] at hx
    subst hx
    rw [hn, hl3]
    have : stepsTo (multiInfo (ascii "n") (ascii "AAAAAAAAAAAAAAAAAAAA") 4 [(1, [ascii "f"])]) (ascii "n") (ascii "f") = [ascii "n", ascii "f"] := by decide +kernel
    rw [this]
    simp [Stays, ascii]
  · decide +kernel
  · rw [he, OCATAll, hl1, hl2]
    refine .open_ok _ _ _ _ _ [1, 2, 3] (by decide +kernel) ?_
    refine .size_ok _ _ _ _ _ [1, 2, 3] (by decide +kernel) ?_
    refine .truncate_ok _ 1 _ _ _ _ [ascii "e", ascii "f"] [1, 2, 3] (by decide +kernel) (by decide +kernel) ?_
    exact .ret _ _
  · rintro ⟨r, e⟩
    exact absurd (List.cons.inj e).1 (by decide)

/-- a file of the torrent is a link to another one -/
def exShared : List (Place × Node) :=
  [([], .dir), ([ascii "w"], .dir), ([ascii "w", ascii "n"], .dir), ([ascii "w", ascii "n", ascii "a"], .file [1, 2, 3]), ([ascii "w", ascii "n", ascii "b"], .link (ascii "a"))]

/-- **C125** is false: when the paths of two files lead to the same place, preparing the second destroys the first, which was complete, and there is no error. -/
theorem C125_refuted_shared : ∃ (d : Dict) (ti : TorInfo) (t t' : Tree) (e : Entry), FromDict d (ascii "/w") = .ok ti ∧ (ti.flist.map fun e => e.base.localPath).Nodup ∧ Proper [] t ∧
    TidyLinks t ∧ LinkExec false [] (OCATAll ti.flist) t (.done (.ok ())) t' ∧ e ∈ ti.flist ∧ e.base.length = 3 ∧
    content t [] e.base.localPath = some [1, 2, 3] ∧ content t' [] e.base.localPath = some [1] := by
  obtain ⟨ti, h, hn, hp⟩ := loaded_some (r := FromDict (multiInfo (ascii "n") (ascii "AAAAAAAAAAAAAAAAAAAA") 4 [(3, [ascii "a"]), (1, [ascii "b"])]) (ascii "/w")) (n := ascii "n")
    (l := [(ascii "/w/n/a", 3, ascii "a"), (ascii "/w/n/b", 1, ascii "b")]) (by decide +kernel)
  obtain ⟨a, tl, he, ha, htl⟩ := List.map_eq_cons_iff.mp hp
  obtain ⟨b, tl', rfl, hb, htl'⟩ := List.map_eq_cons_iff.mp htl
  obtain rfl := List.map_eq_nil_iff.mp htl'
  simp only [Prod.mk.injEq] at ha hb
  obtain ⟨ha1, ha2, ha3⟩ := ha
  obtain ⟨hb1, hb2, hb3⟩ := hb
  refine ⟨_, ti, ofList exShared, (ofList exShared).set [ascii "w", ascii "n", ascii "a"] (.file [1]), a, h, ?_, proper_ofList _ _ ?_ (by decide +kernel) (by decide +kernel), ?_, ?_,
    by rw [he]; exact .head _, ha2, by rw [ha1]; decide +kernel, by rw [ha1]; decide +kernel⟩
  · rw [he]
    simp only [List.map_cons, List.map_nil, ha1, hb1]
    decide
  · decide +kernel
  · intro q l hq
    obtain ⟨x, hx, hx2⟩ := Option.map_eq_some_iff.mp hq
    have hm := List.mem_of_find?_eq_some hx
    have : ∀ x ∈ exShared, ∀ l, x.2 = .link l → l = ascii "a" := by
      intro x hx l hl
      simp only [exShared, List.mem_cons, List.not_mem_nil, or_false] at hx
      rcases hx with rfl | rfl | rfl | rfl | rfl <;> cases hl
      rfl
    rw [this x hm l hx2]
    exact ⟨[], components (ascii "a"), rfl, nofun, by decide +kernel⟩
  · rw [he, OCATAll, OCATAll, ha1, ha2, hb1, hb2]
    refine .open_ok _ _ _ _ _ [1, 2, 3] (by decide +kernel) ?_
    refine .size_ok _ _ _ _ _ [1, 2, 3] (by decide +kernel) ?_
    refine .open_ok _ _ _ _ _ [1, 2, 3] (by decide +kernel) ?_
    refine .size_ok _ _ _ _ _ [1, 2, 3] (by decide +kernel) ?_
    refine .truncate_ok _ 1 _ _ _ _ [ascii "w", ascii "n", ascii "a"] [1, 2, 3] (by decide +kernel) (by decide +kernel) ?_
    exact .ret _ _

/-- the working directory is a link to another disk -/
def exFar : List (Place × Node) :=
  [([], .dir), ([ascii "home"], .dir), ([ascii "home", ascii "dl"], .link (ascii "../disk")), ([ascii "disk"], .dir), ([ascii "disk", ascii "old"], .file [7])]

/-- the hypotheses of C125_only, C125_inside_partial, C125_same_partial and C125_prepared_partial: the working directory is a link, the directory of the torrent is made behind it -/
example : ∃ (d : Dict) (ti : TorInfo) (t' : Tree), FromDict d (ascii "dl") = .ok ti ∧ (∀ e ∈ ti.flist, Stays 0 (stepsTo d ti.name e.base.torPath)) ∧
    Proper [ascii "home"] (ofList exFar) ∧ real (ofList exFar) [ascii "home"] (Clean (ascii "dl")) = some [ascii "disk"] ∧ ofList exFar [ascii "disk"] = some .dir ∧
    (∀ q l, Below [ascii "disk"] q → ofList exFar q ≠ some (.link l)) ∧ TidyLinks (ofList exFar) ∧ (∀ e ∈ ti.flist, Tidy (components e.base.localPath)) ∧
    (∀ e ∈ ti.flist, 0 ≤ e.base.length) ∧ (ti.flist.map fun e => e.base.localPath).Nodup ∧
    (∀ e ∈ ti.flist, ∀ e' ∈ ti.flist, ∀ q, real t' [ascii "home"] e.base.localPath = some q → real t' [ascii "home"] e'.base.localPath = some q → e.base.localPath = e'.base.localPath) ∧
    LinkExec false [ascii "home"] (OCATAll ti.flist) (ofList exFar) (.done (.ok ())) t' ∧
    t' [ascii "disk", ascii "n"] = some .dir ∧ t' [ascii "disk", ascii "n", ascii "f"] = some (.file [0]) := by
  obtain ⟨ti, h, hn, hp⟩ := loaded_some (r := FromDict (multiInfo (ascii "n") (ascii "AAAAAAAAAAAAAAAAAAAA") 4 [(1, [ascii "f"])]) (ascii "dl")) (n := ascii "n")
    (l := [(ascii "dl/n/f", 1, ascii "f")]) (by decide +kernel)
  obtain ⟨e, tl, he, hl, htl⟩ := List.map_eq_cons_iff.mp hp
  obtain rfl := List.map_eq_nil_iff.mp htl
  simp only [Prod.mk.injEq] at hl
  obtain ⟨hl1, hl2, hl3⟩ := hl
  have one : ∀ x ∈ ti.flist, x = e := fun x hx => by rwa [he, List.mem_singleton] at hx
  have links : ∀ q l, ofList exFar q = some (.link l) → q = [ascii "home", ascii "dl"] ∧ l = ascii "../disk" := by
    intro q l hq
    obtain ⟨x, hx, hx2⟩ := Option.map_eq_some_iff.mp hq
    have hm := List.mem_of_find?_eq_some hx
    have hq : x.1 = q := by simpa using List.find?_some hx
    have : ∀ x ∈ exFar, ∀ l, x.2 = .link l → x.1 = [ascii "home", ascii "dl"] ∧ l = ascii "../disk" := by
      intro x hx l hl
      simp only [exFar, List.mem_cons, List.not_mem_nil, or_false] at hx
      rcases hx with rfl | rfl | rfl | rfl | rfl <;> cases hl
      exact ⟨rfl, rfl⟩
    rw [← hq]
    exact this x hm l hx2
  refine ⟨_, ti, (((ofList exFar).set [ascii "disk", ascii "n"] .dir).set [ascii "disk", ascii "n", ascii "f"] (.file [])).set [ascii "disk", ascii "n", ascii "f"] (.file [0]), h, ?_,
    proper_ofList _ _ ?_ (by decide +kernel) (by decide +kernel), by decide +kernel, by decide +kernel, ?_, ?_, ?_, ?_, ?_, ?_, ?_, by decide +kernel, by decide +kernel⟩
  · intro x hx
    rw [one x hx, hn, hl3]
    have : stepsTo (multiInfo (ascii "n") (ascii "AAAAAAAAAAAAAAAAAAAA") 4 [(1, [ascii "f"])]) (ascii "n") (ascii "f") = [ascii "n", ascii "f"] := by decide +kernel
    rw [this]
    simp [Stays, ascii]
  · decide +kernel
  · rintro q l ⟨r, rfl⟩ hq
    exact absurd (List.cons.inj (links _ _ hq).1).1 (by decide)
  · intro q l hq
    rw [(links q l hq).2]
    exact ⟨[ascii ".."], [ascii "disk"], by decide +kernel, by simp, by decide⟩
  · intro x hx
    rw [one x hx, hl1]
    exact ⟨[], components (ascii "dl/n/f"), rfl, nofun, by decide +kernel⟩
  · intro x hx
    rw [one x hx, hl2]
    decide
  · rw [he]; simp
  · intro x hx y hy _ _ _
    rw [one x hx, one y hy]
  · rw [he, OCATAll, hl1, hl2]
    refine .open_fail _ _ _ _ _ (.inl (by decide +kernel)) ?_
    refine .mkdir _ _ _ ((ofList exFar).set [ascii "disk", ascii "n"] .dir) _ _ true ?_ ?_
    · have : (components (ascii "dl/n/f")).dropLast = [ascii "dl", ascii "n"] := by decide +kernel
      rw [this]
      refine .there _ _ _ _ _ _ [ascii "disk"] (by decide +kernel) (by decide +kernel) ?_
      refine .make _ _ _ _ _ _ [ascii "disk"] (by decide +kernel) (by decide +kernel) (by decide) (by decide +kernel) ?_
      exact .done _ _
    refine .trunc_ok _ _ _ _ _ [ascii "disk", ascii "n", ascii "f"] (by decide +kernel) (.inl (by decide +kernel)) ?_
    refine .size_ok _ _ _ _ _ [] (by decide +kernel) ?_
    refine .write_ok _ 0 [0] _ _ _ _ [ascii "disk", ascii "n", ascii "f"] [] (by decide +kernel) (by decide +kernel) ?_
    refine .size_ok _ _ _ _ _ [0] (by decide +kernel) ?_
    exact .ret _ _

/-- C125_no_links: a tree without links, and a path with `..` -/
example : NoLinks (ofList [([], .dir), ([ascii "w"], .dir), ([ascii "f"], .file [1])]) ∧
    real (ofList [([], .dir), ([ascii "w"], .dir), ([ascii "f"], .file [1])]) [ascii "w"] (ascii ".//../f") = some [ascii "f"] := by
  refine ⟨?_, by decide +kernel⟩
  intro q l hq
  obtain ⟨x, hx, hx2⟩ := Option.map_eq_some_iff.mp hq
  have hm := List.mem_of_find?_eq_some hx
  simp only [List.mem_cons, List.not_mem_nil, or_false] at hm
  rcases hm with rfl | rfl | rfl <;> cases hx2

end Verif.Links
