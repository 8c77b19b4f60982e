import Verif.Lemmas.LinksPath
import Verif.Props.Links
/-
C125: chains of links.
-/
set_option autoImplicit false

namespace Verif.Links
open Verif.LinksSpec Verif.Dirs Verif.FS Verif.FileIO Verif.Path

theorem components_name {x : Bytes} (h : Name x) : components x = [x] := by
  rw [components_eq]
  have := Torrent.split_join x [] (fun w hw => by rw [List.mem_singleton] at hw; rw [hw]; exact h.2.2.2)
  exact this

theorem head_name {x : Bytes} (h : Name x) : x.head? ≠ some 47 := by
  intro e
  cases x with
  | nil => cases e
  | cons c x => cases e; exact h.2.2.2 (.head _)

/-- **C125**, chains: a name that is a link to a name that is a link …, over `n` links in one directory, leads to what the last of them names if there are at most 40 links, and otherwise nowhere
(in particular a link that leads to itself). -/
theorem C125_chain (t : Tree) (dir : Place) (n : Nat) (x : Nat → Bytes) (hn : ∀ i, i ≤ n → Name (x i)) (hl : ∀ i, i < n → t (dir ++ [x i]) = some (.link (x (i + 1))))
    (he : ∀ l, t (dir ++ [x n]) ≠ some (.link l)) : real t dir (x 0) = if n ≤ 40 then some (dir ++ [x n]) else none := by
  have nm : ∀ i, i ≤ n → ¬ (x i = [] ∨ x i = ascii ".") ∧ x i ≠ ascii ".." := fun i hi => ⟨fun e => e.elim (hn i hi).1 (hn i hi).2.1, (hn i hi).2.2.1⟩
  have key : ∀ k i m, i + k = n → follow t m dir [x i] = if k ≤ m then some (dir ++ [x n]) else none := by
    intro k
    induction k with
    | zero =>
      intro i m hi
      obtain rfl : i = n := by omega
      rw [if_pos (Nat.zero_le _)]
      obtain ⟨h1, h2⟩ := nm i (Nat.le_refl _)
      cases e : t (dir ++ [x i]) with
      | none => rw [follow_end _ _ h1 h2 (.inl e), if_pos rfl]
      | some nd => cases nd with
        | dir => rw [follow_dir _ _ h1 h2 e, follow_nil]
        | file c => rw [follow_end _ _ h1 h2 (.inr ⟨c, e⟩), if_pos rfl]
        | link l => exact absurd e (he l)
    | succ k ih =>
      intro i m hi
      obtain ⟨h1, h2⟩ := nm i (by omega)
      have hli := hl i (by omega)
      cases m with
      | zero => rw [follow_loop _ h1 h2 hli, if_neg (by omega)]
      | succ m =>
        rw [follow_link _ _ h1 h2 hli, if_neg (head_name (hn (i + 1) (by omega))), components_name (hn (i + 1) (by omega)), List.append_nil, ih (i + 1) m (by omega)]
        by_cases hk : k ≤ m
        · rw [if_pos hk, if_pos (by omega)]
        · rw [if_neg hk, if_neg (by omega)]
  unfold real start
  rw [if_neg (head_name (hn 0 (Nat.zero_le _))), components_name (hn 0 (Nat.zero_le _))]
  exact key n 0 40 (by omega)

/-- two links and a file -/
example : real (ofList [([], .dir), ([ascii "a"], .link (ascii "b")), ([ascii "b"], .link (ascii "c")), ([ascii "c"], .file [1])]) [] (ascii "a") = some [ascii "c"] :=
  C125_chain _ [] 2 (fun i => if i = 0 then ascii "a" else if i = 1 then ascii "b" else ascii "c")
    (fun i hi => by
      have : i = 0 ∨ i = 1 ∨ i = 2 := by omega
      rcases this with rfl | rfl | rfl <;> (unfold Name; decide +kernel))
    (fun i hi => by
      have : i = 0 ∨ i = 1 := by omega
      rcases this with rfl | rfl <;> decide +kernel)
    (fun l e => by
      have : ofList [([], .dir), ([ascii "a"], .link (ascii "b")), ([ascii "b"], .link (ascii "c")), ([ascii "c"], .file [1])] [ascii "c"] = some (.file [1]) := by decide +kernel
      have h := this.symm.trans e
      cases h)

/-- a link to itself leads nowhere -/
theorem C125_loop (t : Tree) (dir : Place) (x : Bytes) (hx : Name x) (h : t (dir ++ [x]) = some (.link x)) : real t dir x = none := by
  have key : ∀ m, follow t m dir [x] = none := by
    intro m
    have h1 : ¬ (x = [] ∨ x = ascii ".") := fun e => e.elim hx.1 hx.2.1
    induction m with
    | zero => exact follow_loop _ h1 hx.2.2.1 h
    | succ m ih => rw [follow_link _ _ h1 hx.2.2.1 h, if_neg (head_name hx), components_name hx, List.append_nil]; exact ih
  unfold real start
  rw [if_neg (head_name hx), components_name hx]
  exact key 40

example : Name (ascii "a") ∧ ofList [([], .dir), ([ascii "a"], .link (ascii "a"))] ([] ++ [ascii "a"]) = some (.link (ascii "a")) := ⟨by unfold Name; decide, by decide +kernel⟩

end Verif.Links
