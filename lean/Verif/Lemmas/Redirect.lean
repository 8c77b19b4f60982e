import Verif.Model.Redirect
import Verif.Spec.Redirect
import Verif.Lemmas.UrlParse
import Verif.Lemmas.Query
/-
The removal of dots from a path.
-/
set_option autoImplicit false

namespace Verif.Redirect
open Verif.UrlParse Verif.RedirectSpec

/-- segments, each with a slash in front -/
def T (out : List Bytes) : Bytes := (out.map fun s => 47 :: s).flatten

theorem T_append (a b : List Bytes) : T (a ++ b) = T a ++ T b := by simp [T]
theorem T_one (s : Bytes) : T [s] = 47 :: s := by simp [T]

/-- the end of `resolvePath` -/
def fin (r : Bytes) : Bytes := if r.length > 1 ∧ r[1]? = some 47 then r.drop 1 else r

theorem fin_two (x : Bytes) : fin (47 :: 47 :: x) = 47 :: x := by simp [fin]
theorem fin_one : fin [47] = [47] := by simp [fin]
theorem fin_other (c : UInt8) (x : Bytes) (h : c ≠ 47) : fin (47 :: c :: x) = 47 :: c :: x := by simp [fin, h]

/-- segments as they are kept: not empty, no slashes -/
def Segs (out : List Bytes) : Prop := ∀ s ∈ out, s ≠ [] ∧ 47 ∉ s

/-- the state of the loop and the output of the RFC -/
inductive Inv : Bool → Bytes → List Bytes → Prop
  | a (out : List Bytes) : Segs out → Inv false (47 :: T out) out
  | b0 : Inv true [47] []
  | b1 (s : Bytes) (out : List Bytes) : Segs (s :: out) → Inv false (T (s :: out)) (s :: out)

theorem fin_a (out : List Bytes) (x : Bytes) (h : out ≠ [] ∨ x.head? = some 47) : fin (47 :: T out ++ x) = T out ++ x := by
  cases out with
  | nil =>
    cases x with
    | nil => simp at h
    | cons c x =>
      simp at h
      subst h
      exact fin_two x
  | cons s out =>
    have e : T (s :: out) = 47 :: (s ++ T out) := by simp [T]
    rw [e, List.cons_append, List.cons_append]
    exact fin_two _

theorem fin_b (s : Bytes) (out : List Bytes) (x : Bytes) (h : Segs (s :: out)) : fin (T (s :: out) ++ x) = T (s :: out) ++ x := by
  obtain ⟨h1, h2⟩ := h s (by simp)
  cases s with
  | nil => exact absurd rfl h1
  | cons c s =>
    have e : T ((c :: s) :: out) = 47 :: c :: (s ++ T out) := by simp [T]
    rw [e, List.cons_append, List.cons_append]
    exact fin_other c _ (fun e => h2 (by simp [e]))

theorem segs_snoc {out : List Bytes} {s : Bytes} (h : Segs out) (h1 : s ≠ []) (h2 : 47 ∉ s) : Segs (out ++ [s]) := by
  intro x hx
  rcases List.mem_append.mp hx with hx | hx
  · exact h x hx
  · rw [List.mem_singleton.mp hx]; exact ⟨h1, h2⟩

theorem segs_init {out : List Bytes} {s : Bytes} (h : Segs (out ++ [s])) : Segs out := fun x hx => h x (by simp [hx])

/-- going up -/
theorem up {first : Bool} {dst : Bytes} {out : List Bytes} (h : Inv first dst out) :
    Inv (pathStep first dst [46, 46]).1 (pathStep first dst [46, 46]).2 out.dropLast ∧ DropLast (T out) (T out.dropLast) := by
  have hd : Segs out → DropLast (T out) (T out.dropLast) := by
    intro hs
    rcases List.eq_nil_or_concat out with rfl | ⟨init, s, rfl⟩
    · exact .inr ⟨by simp [T], rfl⟩
    · rw [List.concat_eq_append] at hs ⊢
      rw [List.dropLast_concat, T_append, T_one]
      exact .inl ⟨s, rfl, (hs s (by simp)).2⟩
  have e46 : ([46, 46] : Bytes) ≠ [46] := by decide
  unfold pathStep
  rw [if_neg e46, if_pos rfl]
  cases h with
  | a _ hs =>
    refine ⟨?_, hd hs⟩
    rcases List.eq_nil_or_concat out with rfl | ⟨init, s, rfl⟩
    · exact .b0
    · rw [List.concat_eq_append] at hs ⊢
      rw [List.dropLast_concat, List.drop_one, List.tail_cons, T_append, T_one, lastIndex_append 47 _ _ (hs s (by simp)).2]
      simp only [List.take_left']
      exact .a _ (segs_init hs)
  | b0 => exact ⟨.b0, .inr ⟨by simp [T], rfl⟩⟩
  | b1 s out hs =>
    refine ⟨?_, hd hs⟩
    rcases List.eq_nil_or_concat out with rfl | ⟨init, s', rfl⟩
    · rw [T_one, List.drop_one, List.tail_cons, lastIndex_none 47 s (hs s (by simp)).2]
      exact .b0
    · rw [List.concat_eq_append] at hs ⊢
      have e : T (s :: (init ++ [s'])) = 47 :: ((s ++ T init) ++ 47 :: s') := by simp [T]
      have e' : (s :: (init ++ [s'])).dropLast = s :: init := by
        rw [← List.cons_append, List.dropLast_concat]
      rw [e, e', List.drop_one, List.tail_cons, lastIndex_append 47 _ _ (hs s' (by simp)).2]
      simp only [List.take_left']
      have : 47 :: (s ++ T init) = T (s :: init) := by simp [T]
      rw [this]
      exact .b1 s init (fun x hx => hs x (by
        rcases List.mem_cons.mp hx with rfl | hx
        · simp
        · simp [hx]))

theorem inv_segs {first : Bool} {dst : Bytes} {out : List Bytes} (h : Inv first dst out) : Segs out := by
  cases h with
  | a _ hs => exact hs
  | b0 => nofun
  | b1 _ _ hs => exact hs

/-- staying -/
theorem stay {first : Bool} {dst : Bytes} {out : List Bytes} (h : Inv first dst out) : Inv (pathStep first dst [46]).1 (pathStep first dst [46]).2 out := by
  unfold pathStep
  rw [if_pos rfl]
  cases h with
  | a _ hs => exact .a _ hs
  | b0 => exact .a [] nofun
  | b1 s out hs => exact .b1 s out hs

/-- going down -/
theorem down {first : Bool} {dst : Bytes} {out : List Bytes} (h : Inv first dst out) (e : Bytes) (h1 : e ≠ [46]) (h2 : e ≠ [46, 46]) (h3 : e ≠ []) (h4 : 47 ∉ e) :
    Inv (pathStep first dst e).1 (pathStep first dst e).2 (out ++ [e]) := by
  unfold pathStep
  rw [if_neg h1, if_neg h2]
  cases h with
  | a _ hs =>
    have : 47 :: T out ++ [47] ++ e = 47 :: T (out ++ [e]) := by simp [T]
    simp only [Bool.false_eq_true, if_false, this]
    exact .a _ (segs_snoc hs h3 h4)
  | b0 =>
    have : [47] ++ [] ++ e = T ([] ++ [e]) := by simp [T]
    simp only [if_true, this]
    exact .b1 e [] (segs_snoc (out := []) nofun h3 h4)
  | b1 s out hs =>
    have : T (s :: out) ++ [47] ++ e = T (s :: (out ++ [e])) := by simp [T]
    simp only [Bool.false_eq_true, if_false, this, List.cons_append]
    exact .b1 s _ (segs_snoc hs h3 h4)

/-- the end with a slash -/
theorem fin_slash {first : Bool} {dst : Bytes} {out : List Bytes} (h : Inv first dst out) : fin (dst ++ [47]) = T out ++ [47] := by
  cases h with
  | a _ hs => exact fin_a out [47] (.inr rfl)
  | b0 => rfl
  | b1 s out hs => exact fin_b s out [47] hs

theorem fin_end {first : Bool} {dst : Bytes} {out : List Bytes} (h : Inv first dst out) (hne : out ≠ []) : fin dst = T out := by
  cases h with
  | a _ hs => simpa using fin_a out [] (.inl hne)
  | b0 => exact absurd rfl hne
  | b1 s out hs => simpa using fin_b s out [] hs

theorem dots_slash (out : Bytes) : Dots [47] out (out ++ [47]) :=
  .e [] [] out _ (by simp) (.inl rfl) (by simp) (by simp) (.nil _)

/-- no two slashes in a row -/
def Simple (s : Bytes) : Prop := ¬ [47, 47] <:+: 47 :: s

theorem simple_head {s : Bytes} (h : Simple s) : s.head? ≠ some 47 := by
  intro e
  cases s with
  | nil => simp at e
  | cons c s =>
    simp at e
    subst e
    exact h ⟨[], s, rfl⟩

theorem simple_rest {a s : Bytes} (h : Simple (a ++ 47 :: s)) : Simple s := by
  rintro ⟨x, y, e⟩
  exact h ⟨47 :: a ++ x, y, by rw [← e]; simp⟩

/-- the loop -/
theorem loop_dots : ∀ (n : Nat) (rem : Bytes), rem.length < n → Simple rem → ∀ (first : Bool) (dst : Bytes) (out : List Bytes), Inv first dst out →
    Dots (47 :: rem) (T out) (fin (if (pathLoop n first dst rem).1 = [46] ∨ (pathLoop n first dst rem).1 = [46, 46] then (pathLoop n first dst rem).2 ++ [47]
      else (pathLoop n first dst rem).2)) := by
  intro n
  induction n with
  | zero => intro rem h; omega
  | succ n ih =>
    intro rem hlen hsimple first dst out hinv
    rw [pathLoop]
    rcases first_sep 47 rem with h47 | ⟨e, rem', rfl, h47⟩
    · -- the last element
      rw [cut_none 47 rem h47]
      simp only [Bool.false_eq_true, if_false]
      by_cases h1 : rem = [46]
      · subst h1
        rw [if_pos (.inl rfl), fin_slash (stay hinv)]
        exact .bEnd _ _ (dots_slash _)
      · by_cases h2 : rem = [46, 46]
        · subst h2
          rw [if_pos (.inr rfl), fin_slash (up hinv).1]
          exact .cEnd _ _ _ (up hinv).2 (dots_slash _)
        · rw [if_neg (not_or.mpr ⟨h1, h2⟩)]
          by_cases h3 : rem = []
          · subst h3
            have : fin (pathStep first dst []).2 = T out ++ [47] := by
              unfold pathStep
              rw [if_neg (by decide), if_neg (by decide)]
              cases hinv with
              | a _ hs => simpa using fin_a out [47] (.inr rfl)
              | b0 => rfl
              | b1 s out hs => simpa using fin_b s out [47] hs
            rw [this]
            exact dots_slash _
          · rw [fin_end (down hinv rem h1 h2 h3 h47) (by simp)]
            have := Dots.e rem [] (T out) (T (out ++ [rem])) h47 (.inl rfl) h1 h2 (by rw [T_append, T_one]; exact .nil _)
            rwa [List.append_nil] at this
    · rw [cut_append 47 e rem' h47]
      simp only [if_true]
      have hs' : Simple rem' := simple_rest hsimple
      have hl : rem'.length < n := by simp at hlen; omega
      by_cases h1 : e = [46]
      · subst h1
        exact .b _ _ _ (ih rem' hl hs' _ _ _ (stay hinv))
      · by_cases h2 : e = [46, 46]
        · subst h2
          exact .c _ _ _ _ (up hinv).2 (ih rem' hl hs' _ _ _ (up hinv).1)
        · by_cases h3 : e = []
          · subst h3
            exact absurd rfl (simple_head hsimple)
          · have := ih rem' hl hs' _ _ _ (down hinv e h1 h2 h3 h47)
            rw [T_append, T_one] at this
            exact .e e (47 :: rem') _ _ h47 (.inr rfl) h1 h2 this

theorem clean_eq (full : Bytes) (h : full ≠ []) : cleanPath full =
    fin (if (pathLoop (full.length + 1) true [47] full).1 = [46] ∨ (pathLoop (full.length + 1) true [47] full).1 = [46, 46] then (pathLoop (full.length + 1) true [47] full).2 ++ [47]
      else (pathLoop (full.length + 1) true [47] full).2) := by
  unfold cleanPath fin
  rw [if_neg h]

/-- a path with a slash in front -/
theorem clean_rooted (p : Bytes) (h : Simple p) : Dots (47 :: p) [] (cleanPath (47 :: p)) := by
  rw [clean_eq _ (by simp), List.length_cons, pathLoop]
  have : cut 47 (47 :: p) = ([], p, true) := cut_append 47 [] p (by simp)
  rw [this]
  simp only [if_true]
  exact loop_dots (p.length + 1) p (by omega) h _ _ [] (.a [] nofun)

/-- a path without one -/
theorem clean_unrooted (p : Bytes) (hp : p ≠ []) (h : Simple p) : Dots (47 :: p) [] (cleanPath p) := by
  rw [clean_eq _ hp]
  exact loop_dots (p.length + 1) p (by omega) h _ _ [] .b0

/-! ### paths with empty segments -/

open Verif.RedirectSpec in
/-- what Go has written, and where that is -/
structure At (first : Bool) (dst : Bytes) (l : List Bytes) : Prop where
  first : first = true ↔ l = []
  dst : dst = if l = [] then [47] else (l.map (47 :: ·)).flatten
  segs : ∀ x ∈ l, 47 ∉ x

open Verif.RedirectSpec in
theorem At.step {first : Bool} {dst : Bytes} {l : List Bytes} (h : At first dst l) (e : Bytes) (he : 47 ∉ e) :
    At (pathStep first dst e).1 (pathStep first dst e).2 (walkStep l e) := by
  obtain ⟨h1, h2, h3⟩ := h
  unfold pathStep walkStep
  by_cases e1 : e = [46]
  · rw [if_pos e1, if_pos e1]
    by_cases hl : l = []
    · rw [if_pos hl]
      refine ⟨by simp, ?_, by simp⟩
      rw [h2, if_pos hl]
      rfl
    · rw [if_neg hl]
      exact ⟨by simp [hl], h2, h3⟩
  · rw [if_neg e1, if_neg e1]
    by_cases e2 : e = [46, 46]
    · rw [if_pos e2, if_pos e2]
      rcases List.eq_nil_or_concat l with rfl | ⟨l, x, rfl⟩
      · rw [if_pos rfl] at h2
        subst h2
        exact ⟨by simp [lastIndex], by simp [lastIndex], by simp⟩
      · rw [List.concat_eq_append] at h1 h2 h3 ⊢
        have hx : 47 ∉ x := h3 x (by simp)
        rw [if_neg (by simp)] at h2
        rw [List.dropLast_concat]
        cases l with
        | nil =>
          have h2 : dst = 47 :: x := by rw [h2]; simp
          subst h2
          rw [List.drop_succ_cons, List.drop_zero, lastIndex_none _ _ hx]
          exact ⟨by simp, rfl, by simp⟩
        | cons y l =>
          have h2 : dst = 47 :: ((y ++ (l.map (47 :: ·)).flatten) ++ 47 :: x) := by rw [h2]; simp
          subst h2
          rw [List.drop_succ_cons, List.drop_zero, lastIndex_append _ _ _ hx]
          refine ⟨?_, ?_, fun z hz => h3 z (by simp at hz ⊢; rcases hz with h | h <;> simp [h])⟩
          · simp only []
            rw [h1]
            simp
          · simp only [List.take_left]
            simp
    · rw [if_neg e2, if_neg e2]
      refine ⟨by simp, ?_, ?_⟩
      · rw [if_neg (c := l ++ [e] = []) (by simp), h2]
        by_cases hl : l = []
        · subst hl
          rw [h1.mpr rfl]
          simp
        · have : first = false := by cases first with
            | true => exact absurd (h1.mp rfl) hl
            | false => rfl
          rw [this, if_neg hl]
          simp
      · intro z hz
        rcases List.mem_append.mp hz with hz | hz
        · exact h3 z hz
        · rw [List.mem_singleton.mp hz]; exact he

open Verif.RedirectSpec in
theorem loop_at : ∀ (n : Nat) (rem : Bytes), rem.length < n → ∀ (first : Bool) (dst : Bytes) (l : List Bytes), At first dst l →
    (∃ f, At f (pathLoop n first dst rem).2 ((Query.splitOn 47 rem).foldl walkStep l)) ∧ (Query.splitOn 47 rem).getLast? = some (pathLoop n first dst rem).1 := by
  intro n
  induction n with
  | zero => intro rem h; omega
  | succ n ih =>
    intro rem h first dst l hl
    rw [pathLoop]
    rcases first_sep 47 rem with hs | ⟨a, b, rfl, hs⟩
    · rw [cut_none _ _ hs, Url.splitOn_none 47 rem (fun c hc e => hs (e ▸ hc))]
      exact ⟨⟨_, hl.step rem hs⟩, rfl⟩
    · rw [cut_append _ _ _ hs, Url.splitOn_append 47 a b (fun c hc e => hs (e ▸ hc))]
      simp only [if_true]
      obtain ⟨i1, i2⟩ := ih b (by simp at h; omega) _ _ _ (hl.step a hs)
      refine ⟨i1, ?_⟩
      rw [List.getLast?_cons, i2]
      rfl

/-- `resolvePath`, for all paths -/
theorem clean_walked (full : Bytes) (h : full ≠ []) : cleanPath full = RedirectSpec.walked full := by
  obtain ⟨⟨f, -, h2, -⟩, h4⟩ := loop_at (full.length + 1) full (by omega) true [47] [] ⟨by simp, rfl, by simp⟩
  have key : ∀ t : Bytes, (if (47 :: t).length > 1 ∧ (47 :: t)[1]? = some 47 then (47 :: t).drop 1 else 47 :: t) = if (47 :: t).take 2 = [47, 47] then (47 :: t).drop 1 else 47 :: t := by
    intro t
    cases t with
    | nil => rfl
    | cons c t => simp
  have hd : ∀ l : List Bytes, ∃ t, (if l = [] then [47] else (l.map (47 :: ·)).flatten) = (47 : UInt8) :: t := by
    intro l
    cases l with
    | nil => exact ⟨[], rfl⟩
    | cons x l => exact ⟨x ++ (l.map (47 :: ·)).flatten, rfl⟩
  unfold cleanPath RedirectSpec.walked RedirectSpec.walk
  rw [if_neg h, h4]
  simp only [Option.some.injEq]
  obtain ⟨t, ht⟩ := hd ((Query.splitOn 47 full).foldl RedirectSpec.walkStep [])
  rw [ht] at h2 ⊢
  rw [h2]
  by_cases he : (pathLoop (full.length + 1) true [47] full).1 = [46] ∨ (pathLoop (full.length + 1) true [47] full).1 = [46, 46]
  · rw [if_pos he, if_pos he]
    exact key (t ++ [47])
  · rw [if_neg he, if_neg he, List.append_nil]
    exact key t

end Verif.Redirect
