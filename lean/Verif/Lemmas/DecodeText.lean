import Verif.Model.DecodeText
import Verif.Spec.DecodeText
import Verif.Lemmas.BencodeDoc
/-
Where the decoder stops, for C104.
-/
set_option autoImplicit false

namespace Verif.DecodeText
open Verif.Bencode Verif.Bencode.Spec Verif.Size Verif.Utils

/-! ### the decoder without texts -/

/-- the kind of an error (Model/Go.lean) -/
def Why.kind : Why → Err
  | .badString _ => .decoder
  | .zeros _ => .decoder
  | .badInt _ => .decoder
  | .atoi _ => .strconv
  | .parseInt _ => .strconv

/-- without cursor and texts -/
def Out.forget {α β : Type} (g : α → β) : Out α → Res β
  | .ok a => .ok (g a)
  | .err e _ => .err e.kind
  | .panic _ => .panic
  | .timeout => .timeout

/-- without the cursor -/
def noCurs {α : Type} (x : α × Nat × Bytes) : α × Bytes := (x.1, x.2.2)

theorem forget_bind {α β α' β' : Type} (o : Out α) (f : α → Out β) (g : α → α') (g' : β → β') (k : α' → Res β') (h : ∀ a, (f a).forget g' = k (g a)) :
    (o.bind f).forget g' = (o.forget g) >>= k := by
  cases o with
  | ok a => exact h a
  | err e c => rfl
  | panic c => rfl
  | timeout => rfl

theorem stringT_forget (sp : Bytes) (c : Nat) (inp : Bytes) : (stringT sp c inp).forget noCurs = decodeString sp inp := by
  unfold stringT decodeString
  cases inp.dropWhile isDigit with
  | nil => rfl
  | cons x r =>
    by_cases h : x = 58
    · simp only [if_pos h]
      cases parseDigits (inp.takeWhile isDigit) with
      | none => rfl
      | some n =>
        by_cases h2 : n ≤ r.length + sp.length
        · simp only [if_pos h2]; rfl
        · simp only [if_neg h2]; rfl
    · simp only [if_neg h]; rfl

theorem intTailT_forget (neg : Bool) (pre : Bytes) (c : Nat) (inp : Bytes) : (intTailT neg pre c inp).forget noCurs = decodeIntTail neg pre inp := by
  unfold intTailT decodeIntTail
  cases inp.dropWhile isDigit with
  | nil => rfl
  | cons x r =>
    by_cases h : x = 101
    · simp only [if_pos h]
      cases parseDigits (pre ++ inp.takeWhile isDigit) with
      | none => rfl
      | some n => rfl
    · simp only [if_neg h]; rfl

theorem intBodyT_forget (neg : Bool) (c : Nat) (inp : Bytes) : (intBodyT neg c inp).forget noCurs = decodeIntBody neg inp := by
  unfold intBodyT decodeIntBody
  cases inp with
  | nil => rfl
  | cons x r =>
    by_cases h : x = 48
    · simp only [if_pos h]
      cases r with
      | nil => rfl
      | cons y r =>
        by_cases h2 : y = 101
        · simp only [if_pos h2]; exact intTailT_forget _ _ _ _
        · simp only [if_neg h2]; rfl
    · simp only [if_neg h]; exact intTailT_forget _ _ _ _

theorem intT_forget (c : Nat) (r : Bytes) : (intT c (105 :: r)).forget noCurs = decodeInt (105 :: r) := by
  unfold intT decodeInt
  simp only [if_pos]
  cases r with
  | nil => rfl
  | cons y r =>
    by_cases h : y = 45
    · simp only [if_pos h]; exact intBodyT_forget _ _ _
    · simp only [if_neg h]; exact intBodyT_forget _ _ _

theorem forget_all (sp : Bytes) (f : Nat) :
    (∀ c inp, (valueT f sp c inp).forget noCurs = decodeValue f sp inp) ∧
    (∀ c inp acc, (listT f sp c inp acc).forget noCurs = listLoop f sp inp acc) ∧
    (∀ c inp acc, (dictT f sp c inp acc).forget noCurs = dictLoop f sp inp acc) := by
  induction f with
  | zero =>
    refine ⟨?_, ?_, ?_⟩
    · intro c inp; rw [valueT, decodeValue_zero]; rfl
    · intro c inp acc; rw [listT, listLoop_zero]; rfl
    · intro c inp acc; rw [dictT, dictLoop_zero]; rfl
  | succ f ih =>
    obtain ⟨ihV, ihL, ihD⟩ := ih
    refine ⟨?_, ?_, ?_⟩
    · intro c inp
      cases inp with
      | nil => rw [valueT, decodeValue_nil]; rfl
      | cons x r =>
        rw [valueT, decodeValue_cons]
        split
        · rw [← ihD (c + 1)]; exact forget_bind _ _ noCurs _ _ (fun _ => rfl)
        · split
          · rw [← ihL (c + 1)]; exact forget_bind _ _ noCurs _ _ (fun _ => rfl)
          · split
            · rename_i h; subst h; rw [← intT_forget c]; exact forget_bind _ _ noCurs _ _ (fun _ => rfl)
            · rw [← stringT_forget sp c]; exact forget_bind _ _ noCurs _ _ (fun _ => rfl)
    · intro c inp acc
      cases inp with
      | nil => rw [listT, listLoop_nil]; rfl
      | cons x r =>
        rw [listT, listLoop_cons]
        split
        · rfl
        · rw [← ihV c]; exact forget_bind _ _ noCurs _ _ (fun _ => ihL _ _ _)
    · intro c inp acc
      cases inp with
      | nil => rw [dictT, dictLoop_nil]; rfl
      | cons x r =>
        rw [dictT, dictLoop_cons]
        split
        · rfl
        · rw [← stringT_forget sp c]
          refine forget_bind _ _ noCurs _ _ (fun k => ?_)
          simp only [noCurs]
          rw [← ihV k.2.1]
          exact forget_bind _ _ noCurs _ _ (fun _ => ihD _ _ _)

/-! ### parts of documents -/

def IsDoc (b : Bytes) : Prop := ∃ v, Parses v b
def IsStr (b : Bytes) : Prop := ∃ s, StrDoc s b
def IsBody (b : Bytes) : Prop := ∃ ds, Digits ds ∧ (ds.head? = some 48 → ds = [48]) ∧ b = ds ++ [101]

inductive Items : Bytes → Prop
  | nil : Items []
  | cons (b bs : Bytes) : IsDoc b → Items bs → Items (b ++ bs)

inductive Entries : Bytes → Prop
  | nil : Entries []
  | cons (k b bs : Bytes) : IsStr k → IsDoc b → Entries bs → Entries (k ++ (b ++ bs))

theorem items_flatten {b : Bytes} (h : Items b) : ∃ vs : List (Value × Bytes), (∀ p ∈ vs, Parses p.1 p.2) ∧ b = (vs.map Prod.snd).flatten := by
  induction h with
  | nil => exact ⟨[], by simp, rfl⟩
  | cons b bs hb _ ih =>
    obtain ⟨v, hv⟩ := hb
    obtain ⟨vs, h1, rfl⟩ := ih
    refine ⟨(v, b) :: vs, ?_, by simp⟩
    intro p hp
    rcases List.mem_cons.mp hp with rfl | hp
    · exact hv
    · exact h1 p hp

theorem entries_flatten {b : Bytes} (h : Entries b) : ∃ es : List Item, (∀ e ∈ es, StrDoc e.key e.keyDoc) ∧ (∀ e ∈ es, Parses e.value e.valDoc) ∧
    b = (es.map fun e => e.keyDoc ++ e.valDoc).flatten := by
  induction h with
  | nil => exact ⟨[], by simp, by simp, rfl⟩
  | cons k b bs hk hb _ ih =>
    obtain ⟨v, hv⟩ := hb
    obtain ⟨s, hs⟩ := hk
    obtain ⟨es, h1, h2, rfl⟩ := ih
    refine ⟨⟨s, k, v, b⟩ :: es, ?_, ?_, by simp⟩
    · intro p hp
      rcases List.mem_cons.mp hp with rfl | hp
      · exact hs
      · exact h1 p hp
    · intro p hp
      rcases List.mem_cons.mp hp with rfl | hp
      · exact hv
      · exact h2 p hp

theorem items_doc {b : Bytes} (h : Items b) : IsDoc (108 :: (b ++ [101])) := by
  obtain ⟨vs, h1, rfl⟩ := items_flatten h
  have := Parses.list vs h1
  exact ⟨_, by simpa [ascii] using this⟩

theorem entries_doc {b : Bytes} (h : Entries b) : IsDoc (100 :: (b ++ [101])) := by
  obtain ⟨es, h1, h2, rfl⟩ := entries_flatten h
  have := Parses.dict es _ h1 h2 (assign_lastWins _)
  exact ⟨_, by simpa [ascii] using this⟩

theorem body_doc {b : Bytes} (h : IsBody b) : IsDoc (105 :: b) ∧ IsDoc (105 :: 45 :: b) := by
  obtain ⟨ds, h1, h2, rfl⟩ := h
  refine ⟨⟨.int64 (decVal ds), .int _ _ ⟨ds, h1, h2, .inl ⟨by simp [ascii], rfl⟩⟩⟩, ⟨.int64 (-(decVal ds : Int)), .int _ _ ⟨ds, h1, h2, .inr ⟨by simp [ascii], rfl⟩⟩⟩⟩

theorem str_doc {b : Bytes} (h : IsStr b) : IsDoc b := by
  obtain ⟨s, h⟩ := h
  exact ⟨_, .str s b h⟩

theorem strZero : IsStr [48, 58] := ⟨[], [48], ⟨by simp, by decide, by decide⟩, by decide, by decide⟩
theorem bodyZero : IsBody [48, 101] := ⟨[48], ⟨by simp, by decide, by decide⟩, by simp, rfl⟩

/-! ### what can be continued, and what cannot -/

/-- `p` ends with a number that is too long, or can be continued to something with `P` -/
def Cont (P : Bytes → Prop) (p : Bytes) : Prop := Long p ∨ ∃ ext, P (p ++ ext)

theorem long_append {p : Bytes} (b : Bytes) (h : Long p) : Long (b ++ p) := by
  obtain ⟨a, ds, rfl, h1, h2⟩ := h
  exact ⟨b ++ a, ds, by simp, h1, h2⟩

theorem Cont.map {P P' : Bytes → Prop} {p : Bytes} (b : Bytes) (h : Cont P p) (hP : ∀ p, P p → ∃ ext, P' (b ++ (p ++ ext))) : Cont P' (b ++ p) := by
  rcases h with h | ⟨ext, h⟩
  · exact .inl (long_append b h)
  · obtain ⟨ext', h'⟩ := hP _ h
    exact .inr ⟨ext ++ ext', by simpa using h'⟩

theorem inside_append {p : Bytes} (b : Bytes) (h : Inside p) : Inside (b ++ p) := by
  obtain ⟨a, ds, s, rfl, h⟩ := h
  exact ⟨b ++ a, ds, s, by simp, h⟩

def NeverV (p : Bytes) : Prop := ∀ f sp ext v r, decodeValue f sp (p ++ ext) ≠ .ok (v, r)
def NeverL (p : Bytes) : Prop := ∀ f sp ext acc v r, listLoop f sp (p ++ ext) acc ≠ .ok (v, r)
def NeverD (p : Bytes) : Prop := ∀ f sp ext acc v r, dictLoop f sp (p ++ ext) acc ≠ .ok (v, r)
def NeverS (p : Bytes) : Prop := ∀ sp ext s r, decodeString sp (p ++ ext) ≠ .ok (s, r)
def NeverB (neg : Bool) (p : Bytes) : Prop := ∀ ext i r, decodeIntBody neg (p ++ ext) ≠ .ok (i, r)

/-- the position that an error tells -/
def Why.pos : Why → Option Nat
  | .badString k => some k
  | .zeros k => some k
  | .badInt k => some k
  | _ => none

/-- what the part before the cursor looks like when an integer's digits are rejected -/
def Before : Why → Bytes → Prop
  | .badString _, _ => False
  | .zeros _, p => p = [48]
  | .badInt _, p => ∀ d ∈ p, 48 ≤ d ∧ d ≤ 57
  | .atoi _, _ => False
  | .parseInt ds, p => p = ds ++ [101] ∧ ¬ Digits ds

/-- what the data before the cursor looks like -/
def Tells : Why → Bytes → Prop
  | .badString _, _ => True
  | .zeros _, p => ∃ a sg, p = a ++ 105 :: (sg ++ [48]) ∧ (sg = [] ∨ sg = [45])
  | .badInt _, p => ∃ a sg ds, p = a ++ 105 :: (sg ++ ds) ∧ (sg = [] ∨ sg = [45]) ∧ ∀ d ∈ ds, 48 ≤ d ∧ d ≤ 57
  | .atoi ds, p => ∃ a, p = a ++ (ds ++ [58]) ∧ ¬ Digits ds
  | .parseInt ds, p => ∃ a sg, p = a ++ 105 :: (sg ++ (ds ++ [101])) ∧ (sg = [] ∨ sg = [45]) ∧ ¬ Digits ds

theorem tells_append {e : Why} {p : Bytes} (b : Bytes) (h : Tells e p) : Tells e (b ++ p) := by
  cases e with
  | badString k => trivial
  | zeros k => obtain ⟨a, sg, rfl, h⟩ := h; exact ⟨b ++ a, sg, by simp, h⟩
  | badInt k => obtain ⟨a, sg, ds, rfl, h⟩ := h; exact ⟨b ++ a, sg, ds, by simp, h⟩
  | atoi ds => obtain ⟨a, rfl, h⟩ := h; exact ⟨b ++ a, by simp, h⟩
  | parseInt ds => obtain ⟨a, sg, rfl, h⟩ := h; exact ⟨b ++ a, sg, by simp, h⟩

theorem before_tells {e : Why} {p : Bytes} (sg : Bytes) (hs : sg = [] ∨ sg = [45]) (h : Before e p) : Tells e (105 :: (sg ++ p)) := by
  cases e with
  | badString k => exact h.elim
  | zeros k => cases h; exact ⟨[], sg, rfl, hs⟩
  | badInt k => exact ⟨[], sg, p, rfl, hs, h⟩
  | atoi ds => exact h.elim
  | parseInt ds => obtain ⟨rfl, h⟩ := h; exact ⟨[], sg, rfl, hs, h⟩

/-- how a function called at `curs` with the rest `inp` ends -/
def Fine {α : Type} (curs : Nat) (inp : Bytes) (P N : Bytes → Prop) (T : Why → Bytes → Prop) (Q : α → Prop) : Out α → Prop
  | .ok a => Q a
  | .err e k => ∃ j, k = curs + j ∧ inp ≠ [] ∧ N (inp.take (j + 1)) ∧ T e (inp.take j) ∧ ∀ m, e.pos = some m → m = k ∧ j < inp.length ∧ Cont P (inp.take j)
  | .panic k => Cont P inp ∧ (curs + inp.length ≤ k ∨ Inside inp)
  | .timeout => True

theorem Fine.shift {α : Type} {curs : Nat} {inp b r : Bytes} {P N P' N' : Bytes → Prop} {T T' : Why → Bytes → Prop} {Q Q' : α → Prop} {o : Out α} (hb : inp = b ++ r)
    (hP : ∀ p, P p → ∃ ext, P' (b ++ (p ++ ext))) (hN : ∀ p, p <+: r → p ≠ [] → N p → N' (b ++ p)) (hT : ∀ e p, T e p → T' e (b ++ p)) (hQ : ∀ a, Q a → Q' a)
    (h : Fine (curs + b.length) r P N T Q o) : Fine curs inp P' N' T' Q' o := by
  subst hb
  cases o with
  | ok a => exact hQ a h
  | err e k =>
    obtain ⟨j, hk, hr, hn, ht, hp⟩ := h
    have e1 : ∀ n, (b ++ r).take (b.length + n) = b ++ r.take n := fun n => by rw [List.take_append, List.take_of_length_le (by omega)]; congr 2; omega
    refine ⟨b.length + j, by omega, by simp [hr], ?_, by rw [e1]; exact hT _ _ ht, ?_⟩
    · rw [Nat.add_assoc, e1]
      refine hN _ (List.take_prefix _ _) ?_ hn
      cases r with
      | nil => exact absurd rfl hr
      | cons c r => simp
    · intro m hm
      obtain ⟨h1, h2, h3⟩ := hp m hm
      refine ⟨h1, by simp; omega, ?_⟩
      rw [e1]
      exact h3.map b hP
  | panic k =>
    refine ⟨h.1.map b hP, ?_⟩
    rcases h.2 with h | h
    · left; simp; omega
    · exact .inr (inside_append b h)
  | timeout => trivial

theorem Fine.bind {α β : Type} {curs : Nat} {inp : Bytes} {P N : Bytes → Prop} {T : Why → Bytes → Prop} {Q : α → Prop} {Q' : β → Prop} {o : Out α} {f : α → Out β} (h : Fine curs inp P N T Q o)
    (hf : ∀ a, Q a → Fine curs inp P N T Q' (f a)) : Fine curs inp P N T Q' (o.bind f) := by
  cases o with
  | ok a => exact hf a h
  | err e k => exact h
  | panic k => exact h
  | timeout => trivial

/-- what is taken has `P`, or it goes on behind the end of the data -/
def Took {α : Type} (curs : Nat) (inp : Bytes) (P : Bytes → Prop) (x : α × Nat × Bytes) : Prop :=
  (∃ b, inp = b ++ x.2.2 ∧ P b ∧ x.2.1 = curs + b.length) ∨ (x.2.2 = [] ∧ curs + inp.length < x.2.1 ∧ ∃ ext, P (inp ++ ext))

theorem isDigit_all {ds : Bytes} (h : ∀ d ∈ ds, isDigit d = true) : ∀ d ∈ ds, 48 ≤ d ∧ d ≤ 57 := fun d hd => (isDigit_iff d).mp (h d hd)

theorem cont_digits {ds : Bytes} (h : ∀ d ∈ ds, isDigit d = true) : Cont IsStr ds := by
  by_cases hl : decVal ds < 2 ^ 63
  · right
    cases ds with
    | nil => exact ⟨[48, 58], strZero⟩
    | cons d ds =>
      refine ⟨ascii ":" ++ List.replicate (decVal (d :: ds)) 0, List.replicate (decVal (d :: ds)) 0, d :: ds, ⟨by simp, isDigit_all h, hl⟩, by simp, by simp⟩
  · exact .inl ⟨[], ds, rfl, isDigit_all h, by omega⟩

theorem takeWhile_all {ds : Bytes} (h : ds.dropWhile isDigit = []) : ds.takeWhile isDigit = ds ∧ ∀ d ∈ ds, isDigit d = true := by
  have e := List.takeWhile_append_dropWhile (p := isDigit) (l := ds)
  rw [h, List.append_nil] at e
  refine ⟨e, ?_⟩
  rw [← e]
  have := List.all_takeWhile (l := ds) (p := isDigit)
  exact fun d hd => List.all_eq_true.mp this d hd

theorem take_mid (ds r : Bytes) (c : UInt8) (n : Nat) : (ds ++ c :: r).take (ds.length + (n + 1)) = ds ++ c :: r.take n := by
  rw [List.take_append, List.take_of_length_le (by omega)]
  congr 1
  rw [show ds.length + (n + 1) - ds.length = n + 1 by omega, List.take_succ_cons]

theorem string_fine (sp : Bytes) (curs : Nat) (inp : Bytes) : Fine curs inp IsStr NeverS Tells (Took curs inp IsStr) (stringT sp curs inp) := by
  unfold stringT
  split
  · rename_i h
    obtain ⟨h1, h2⟩ := takeWhile_all h
    rw [h1]
    exact ⟨cont_digits h2, .inl (Nat.le_refl _)⟩
  · rename_i c r hdw
    obtain ⟨ds, rfl, hds, htw, hc⟩ := split_digits hdw
    rw [htw]
    split
    · rename_i h58
      subst h58
      split
      · rename_i hn
        refine ⟨ds.length + 1, by omega, by simp, ?_, ⟨[], by rw [take_mid ds r 58 0]; simp, fun h => by rw [(parseDigits_iff ds _ hds).mpr ⟨h, rfl⟩] at hn; cases hn⟩, fun m hm => by cases hm⟩
        rw [Nat.add_assoc, take_mid]
        intro sp ext s q
        rw [List.append_assoc, List.cons_append, decodeString, takeWhile_digits _ _ _ hds isDigit_colon, dropWhile_digits _ _ _ hds isDigit_colon]
        simp only [if_pos, hn]
        nofun
      · rename_i n hn
        obtain ⟨h1, h2⟩ := (parseDigits_iff ds n hds).mp hn
        have grow : r.length < n → ∃ ext, IsStr (ds ++ 58 :: r ++ ext) := by
          intro hlt
          refine ⟨List.replicate (n - r.length) 0, r ++ List.replicate (n - r.length) 0, ds, h1, ?_, by simp [ascii]⟩
          rw [h2, List.length_append, List.length_replicate]; omega
        split
        · by_cases hle : n ≤ r.length
          · left
            refine ⟨ds ++ 58 :: r.take n, by simp, ⟨r.take n, ds, h1, by simp; omega, by simp [ascii]⟩, ?_⟩
            simp; omega
          · right
            refine ⟨List.drop_eq_nil_of_le (by omega), ?_, grow (by omega)⟩
            simp; omega
        · rename_i hn2
          refine ⟨.inr (grow (by omega)), ?_⟩
          cases r with
          | nil => left; simp; omega
          | cons x r => exact .inr ⟨[], ds, x :: r, by simp [ascii], h1, by simp, by simp at hn2 ⊢; omega⟩
    · rename_i h58
      refine ⟨ds.length, rfl, by simp, ?_, trivial, ?_⟩
      · rw [take_mid ds r c 0]
        intro sp ext s q
        rw [List.take_zero, List.append_assoc, List.cons_append, decodeString, takeWhile_digits _ _ _ hds hc, dropWhile_digits _ _ _ hds hc]
        simp only [if_neg h58]
        nofun
      · intro m hm
        cases hm
        refine ⟨rfl, by simp, ?_⟩
        rw [List.take_append, List.take_of_length_le (Nat.le_refl _), Nat.sub_self, List.take_zero, List.append_nil]
        exact cont_digits hds

theorem cont_body {ds : Bytes} (h : ∀ d ∈ ds, isDigit d = true) (h0 : ds.head? ≠ some 48) : Cont IsBody ds := by
  by_cases hl : decVal ds < 2 ^ 63
  · right
    cases ds with
    | nil => exact ⟨[48, 101], bodyZero⟩
    | cons d ds => exact ⟨[101], d :: ds, ⟨by simp, isDigit_all h, hl⟩, fun h => absurd h h0, rfl⟩
  · exact .inl ⟨[], ds, rfl, isDigit_all h, by omega⟩

/-- an integer's digits; nothing is read behind the end -/
def TookB {α : Type} (curs : Nat) (inp : Bytes) (P : Bytes → Prop) (x : α × Nat × Bytes) : Prop := ∃ b, inp = b ++ x.2.2 ∧ P b ∧ x.2.1 = curs + b.length

theorem body_fine (neg : Bool) (curs : Nat) (inp : Bytes) : Fine curs inp IsBody (NeverB neg) Before (TookB curs inp IsBody) (intBodyT neg curs inp) := by
  cases inp with
  | nil => exact ⟨.inr ⟨[48, 101], bodyZero⟩, .inl (Nat.le_refl _)⟩
  | cons c r =>
    unfold intBodyT
    simp only
    split
    · rename_i h48
      subst h48
      cases r with
      | nil => exact ⟨.inr ⟨[101], bodyZero⟩, .inl (Nat.le_refl _)⟩
      | cons c' r =>
        simp only
        split
        · rename_i h101
          subst h101
          simp only [intTailT, List.dropWhile, isDigit_e, List.takeWhile, if_pos, List.append_nil]
          have : parseDigits [48] = some 0 := by decide
          rw [this]
          exact ⟨[48, 101], rfl, bodyZero, rfl⟩
        · rename_i h101
          refine ⟨1, rfl, by simp, ?_, rfl, ?_⟩
          · intro ext i q
            simp only [List.take_succ_cons, List.take_zero, List.cons_append, List.nil_append, decodeIntBody, if_pos, if_neg h101]
            nofun
          · intro m hm
            cases hm
            exact ⟨rfl, by simp, .inr ⟨[101], bodyZero⟩⟩
    · rename_i h48
      generalize hi : c :: r = inp
      have hh : ∀ ds q, inp = ds ++ q → ds.head? ≠ some 48 := by
        intro ds q he
        cases ds with
        | nil => simp
        | cons d ds =>
          rw [← hi] at he
          simp only [List.head?_cons, ne_eq, Option.some.injEq]
          exact fun hd => h48 ((List.cons.inj he).1.trans hd)
      have nb : ∀ p ext i q, p ≠ [] → p <+: inp → decodeIntBody neg (p ++ ext) = .ok (i, q) → decodeIntTail neg [] (p ++ ext) = .ok (i, q) := by
        rintro p ext i q hp ⟨t, ht⟩ h
        cases p with
        | nil => exact absurd rfl hp
        | cons d p =>
          rw [← hi] at ht
          have hd : d ≠ 48 := by rw [(List.cons.inj ht).1]; exact h48
          simpa only [List.cons_append, decodeIntBody, if_neg hd] using h
      unfold intTailT
      split
      · rename_i h
        obtain ⟨h1, h2⟩ := takeWhile_all h
        rw [h1]
        exact ⟨cont_body h2 (hh inp [] (by simp)), .inl (Nat.le_refl _)⟩
      · rename_i x q hdw
        obtain ⟨ds, rfl, hds, htw, hc⟩ := split_digits hdw
        rw [htw, List.nil_append]
        split
        · rename_i h101
          subst h101
          split
          · rename_i hn
            refine ⟨ds.length + 1, by omega, by simp, ?_, ⟨by rw [take_mid ds q 101 0]; simp, fun h => by rw [(parseDigits_iff ds _ hds).mpr ⟨h, rfl⟩] at hn; cases hn⟩,
              fun m hm => by cases hm⟩
            intro ext i t h
            have := nb _ _ _ _ (by simp) (List.take_prefix _ _) h
            rw [Nat.add_assoc, take_mid, List.append_assoc, List.cons_append, decodeIntTail, takeWhile_digits _ _ _ hds isDigit_e,
              dropWhile_digits _ _ _ hds isDigit_e] at this
            simp only [if_pos, List.nil_append, hn] at this
            cases this
          · rename_i n hn
            obtain ⟨h1, h2⟩ := (parseDigits_iff ds n hds).mp hn
            exact ⟨ds ++ [101], by simp, ⟨ds, h1, fun h => absurd h (hh ds _ rfl), rfl⟩, by simp; omega⟩
        · rename_i h101
          refine ⟨ds.length, rfl, by simp, ?_, by rw [List.take_append, List.take_of_length_le (Nat.le_refl _), Nat.sub_self, List.take_zero, List.append_nil]; exact isDigit_all hds, ?_⟩
          · intro ext i t h
            have := nb _ _ _ _ (by simp) (List.take_prefix _ _) h
            rw [take_mid ds q x 0, List.take_zero, List.append_assoc, List.cons_append, decodeIntTail, takeWhile_digits _ _ _ hds hc,
              dropWhile_digits _ _ _ hds hc] at this
            simp only [if_neg h101] at this
            cases this
          · intro m hm
            cases hm
            refine ⟨rfl, by simp, ?_⟩
            rw [List.take_append, List.take_of_length_le (Nat.le_refl _), Nat.sub_self, List.take_zero, List.append_nil]
            exact cont_body hds (hh ds _ rfl)

theorem int_value (f : Nat) (sp r : Bytes) (v : Value) (q : Bytes) (h : decodeValue f sp (105 :: r) = .ok (v, q)) : ∃ i, decodeInt (105 :: r) = .ok (i, q) := by
  cases f with
  | zero => rw [decodeValue_zero] at h; cases h
  | succ f =>
    rw [decodeValue_cons, if_neg (by decide), if_neg (by decide), if_pos rfl] at h
    obtain ⟨⟨i, r1⟩, ha, hb⟩ := Res.bind_eq_ok.mp h
    simp only [Res.ok.injEq, Prod.mk.injEq] at hb
    obtain ⟨rfl, rfl⟩ := hb
    exact ⟨i, ha⟩

theorem int_fine (curs : Nat) (r : Bytes) : Fine curs (105 :: r) IsDoc NeverV Tells (TookB curs (105 :: r) IsDoc) (intT curs (105 :: r)) := by
  unfold intT
  simp only
  cases r with
  | nil => exact ⟨.inr ⟨[48, 101], (body_doc bodyZero).1⟩, .inl (Nat.le_refl _)⟩
  | cons s r =>
    simp only
    split
    · rename_i hs
      subst hs
      refine Fine.shift (b := [105, 45]) rfl (fun p hp => ⟨[], by simpa using (body_doc hp).2⟩) ?_ (fun e p h => before_tells [45] (.inr rfl) h) ?_ (body_fine true (curs + 2) r)
      · intro p _ _ hn f sp ext v q h
        obtain ⟨i, h⟩ := int_value _ _ _ _ _ h
        simp only [decodeInt, List.append_eq, if_pos] at h
        exact hn _ _ _ h
      · rintro ⟨i, c', q⟩ ⟨b, h1, h2, h3⟩
        exact ⟨105 :: 45 :: b, by simp only at h1; rw [h1]; rfl, (body_doc h2).2, by simp only at h3 ⊢; rw [h3]; simp; omega⟩
    · rename_i hs
      refine Fine.shift (b := [105]) rfl (fun p hp => ⟨[], by simpa using (body_doc hp).1⟩) ?_ (fun e p h => before_tells [] (.inl rfl) h) ?_ (body_fine false (curs + 1) (s :: r))
      · rintro p ⟨t, ht⟩ hp hn f sp ext v q h
        obtain ⟨i, h⟩ := int_value _ _ _ _ _ h
        cases p with
        | nil => exact absurd rfl hp
        | cons d p =>
          have hd : d ≠ 45 := by rw [(List.cons.inj ht).1]; exact hs
          simp only [decodeInt, List.append_eq, List.nil_append, List.cons_append, if_pos, if_neg hd] at h
          exact hn _ _ _ h
      · rintro ⟨i, c', q⟩ ⟨b, h1, h2, h3⟩
        exact ⟨105 :: b, by simp only at h1; rw [h1]; rfl, (body_doc h2).1, by simp only at h3 ⊢; rw [h3]; simp; omega⟩

theorem doc_rest {b : Bytes} (hb : IsDoc b) {f : Nat} {sp x r : Bytes} {w : Value} (h : decodeValue f sp (b ++ x) = .ok (w, r)) : r = x := by
  obtain ⟨v, hv⟩ := hb
  obtain ⟨w', hw, _⟩ := decodeValue_doc hv (f + (b.length + 1)) sp x (by omega)
  rw [decodeValue_fuel (by rw [h]; simp) (Nat.le_add_right _ _), h] at hw
  simp only [Res.ok.injEq, Prod.mk.injEq] at hw
  exact hw.2

theorem never_item {b p : Bytes} (hb : IsDoc b) (hn : NeverL p) : NeverL (b ++ p) := by
  intro f sp ext acc v r h
  obtain ⟨v0, hv0⟩ := hb
  obtain ⟨c, q, hc, hne⟩ := parses_head hv0
  cases f with
  | zero => rw [listLoop_zero] at h; cases h
  | succ f =>
    have e : b ++ p ++ ext = c :: (q ++ (p ++ ext)) := by rw [hc]; simp
    rw [e, listLoop_cons, if_neg hne] at h
    obtain ⟨⟨w, r1⟩, ha, hb⟩ := Res.bind_eq_ok.mp h
    have e2 : c :: (q ++ (p ++ ext)) = b ++ (p ++ ext) := by rw [hc]; simp
    rw [e2] at ha
    cases doc_rest ⟨v0, hv0⟩ ha
    exact hn _ _ _ _ _ _ hb

theorem never_first {c : UInt8} {r p : Bytes} (hc : c ≠ 101) (hp : p <+: c :: r) (h0 : p ≠ []) (hn : NeverV p) : NeverL p := by
  intro f sp ext acc v q h
  cases p with
  | nil => exact absurd rfl h0
  | cons d p =>
    obtain ⟨t, ht⟩ := hp
    have hd : d ≠ 101 := by rw [(List.cons.inj ht).1]; exact hc
    cases f with
    | zero => rw [listLoop_zero] at h; cases h
    | succ f =>
      rw [List.cons_append, listLoop_cons, if_neg hd] at h
      obtain ⟨⟨w, r1⟩, ha, hb⟩ := Res.bind_eq_ok.mp h
      exact hn _ _ _ _ _ ha

theorem never_key {c : UInt8} {r p : Bytes} (hc : c ≠ 101) (hp : p <+: c :: r) (h0 : p ≠ []) (hn : NeverS p) : NeverD p := by
  intro f sp ext acc v q h
  cases p with
  | nil => exact absurd rfl h0
  | cons d p =>
    obtain ⟨t, ht⟩ := hp
    have hd : d ≠ 101 := by rw [(List.cons.inj ht).1]; exact hc
    cases f with
    | zero => rw [dictLoop_zero] at h; cases h
    | succ f =>
      rw [List.cons_append, dictLoop_cons, if_neg hd] at h
      obtain ⟨⟨w, r1⟩, ha, hb⟩ := Res.bind_eq_ok.mp h
      exact hn _ _ _ _ ha

theorem dict_key {k x : Bytes} (hk : IsStr k) {f : Nat} {sp : Bytes} {acc : Dict} {v : Dict} {r : Bytes} (h : dictLoop f sp (k ++ x) acc = .ok (v, r)) :
    ∃ g w r1 acc', decodeValue g sp x = .ok (w, r1) ∧ dictLoop g sp r1 acc' = .ok (v, r) := by
  obtain ⟨s, hs⟩ := hk
  obtain ⟨c, q, hc, hd⟩ := strDoc_head hs
  cases f with
  | zero => rw [dictLoop_zero] at h; cases h
  | succ f =>
    have hstr := decodeString_doc hs sp x
    rw [hc, List.cons_append] at h hstr
    rw [dictLoop_cons, if_neg (isDigit_lit hd).2.2.2.1, hstr] at h
    simp only [Res.ok_bind] at h
    obtain ⟨⟨w, r1⟩, ha, hb⟩ := Res.bind_eq_ok.mp h
    exact ⟨f, w, r1, _, ha, hb⟩

theorem fine_all (sp : Bytes) (f : Nat) :
    (∀ curs inp, Fine curs inp IsDoc NeverV Tells (Took curs inp IsDoc) (valueT f sp curs inp)) ∧
    (∀ curs inp acc, Fine curs inp Items NeverL Tells (fun x => ∃ b, inp = b ++ 101 :: x.2.2 ∧ Items b ∧ x.2.1 = curs + b.length + 1) (listT f sp curs inp acc)) ∧
    (∀ curs inp acc, Fine curs inp Entries NeverD Tells (fun x => ∃ b, inp = b ++ 101 :: x.2.2 ∧ Entries b ∧ x.2.1 = curs + b.length + 1) (dictT f sp curs inp acc)) := by
  induction f with
  | zero =>
    refine ⟨?_, ?_, ?_⟩
    · intro c inp; rw [valueT]; trivial
    · intro c inp acc; rw [listT]; trivial
    · intro c inp acc; rw [dictT]; trivial
  | succ f ih =>
    obtain ⟨ihV, ihL, ihD⟩ := ih
    refine ⟨?_, ?_, ?_⟩
    · intro curs inp
      cases inp with
      | nil => rw [valueT]; exact ⟨.inr ⟨[48, 58], str_doc strZero⟩, .inl (Nat.le_refl _)⟩
      | cons c r =>
        rw [valueT]
        split
        · rename_i h
          subst h
          refine Fine.bind (Q := fun x => ∃ b, r = b ++ 101 :: x.2.2 ∧ Entries b ∧ x.2.1 = curs + 1 + b.length + 1)
            (Fine.shift (b := [100]) rfl (fun p hp => ⟨[101], entries_doc hp⟩) ?_ (fun e p h => tells_append _ h) (fun a h => h) (ihD (curs + 1) r [])) ?_
          · intro p _ _ hn g sp' ext v q h
            cases g with
            | zero => rw [decodeValue_zero] at h; cases h
            | succ g =>
              rw [List.append_assoc, List.cons_append, decodeValue_cons, if_pos rfl] at h
              obtain ⟨⟨es, r1⟩, ha, hb⟩ := Res.bind_eq_ok.mp h
              exact hn _ _ _ _ _ _ ha
          · rintro ⟨d, c', q⟩ ⟨b, rfl, h2, h3⟩
            exact .inl ⟨100 :: (b ++ [101]), by simp, entries_doc h2, by simp only at h3 ⊢; rw [h3]; simp; omega⟩
        · split
          · rename_i _ h
            subst h
            refine Fine.bind (Q := fun x => ∃ b, r = b ++ 101 :: x.2.2 ∧ Items b ∧ x.2.1 = curs + 1 + b.length + 1)
              (Fine.shift (b := [108]) rfl (fun p hp => ⟨[101], items_doc hp⟩) ?_ (fun e p h => tells_append _ h) (fun a h => h) (ihL (curs + 1) r [])) ?_
            · intro p _ _ hn g sp' ext v q h
              cases g with
              | zero => rw [decodeValue_zero] at h; cases h
              | succ g =>
                rw [List.append_assoc, List.cons_append, decodeValue_cons, if_neg (by decide), if_pos rfl] at h
                obtain ⟨⟨es, r1⟩, ha, hb⟩ := Res.bind_eq_ok.mp h
                exact hn _ _ _ _ _ _ ha
            · rintro ⟨d, c', q⟩ ⟨b, rfl, h2, h3⟩
              exact .inl ⟨108 :: (b ++ [101]), by simp, items_doc h2, by simp only at h3 ⊢; rw [h3]; simp; omega⟩
          · split
            · rename_i _ _ h
              subst h
              refine Fine.bind (int_fine curs r) ?_
              rintro ⟨d, c', q⟩ h
              exact .inl h
            · rename_i h1 h2 h3
              refine Fine.bind (Q := Took curs (c :: r) IsStr)
                (Fine.shift (b := []) (by simp) (fun p hp => ⟨[], by simpa using str_doc hp⟩) ?_ (fun e p h => tells_append _ h) (fun a h => h) (string_fine sp curs (c :: r))) ?_
              · rintro p ⟨t, ht⟩ hp hn g sp' ext v q h
                cases p with
                | nil => exact absurd rfl hp
                | cons d p =>
                  have hd : d = c := (List.cons.inj ht).1
                  subst hd
                  cases g with
                  | zero => rw [decodeValue_zero] at h; cases h
                  | succ g =>
                    rw [List.nil_append, List.cons_append, decodeValue_cons, if_neg h1, if_neg h2, if_neg h3] at h
                    obtain ⟨⟨es, r1⟩, ha, hb⟩ := Res.bind_eq_ok.mp h
                    exact hn _ _ _ _ ha
              · rintro ⟨d, c', q⟩ (⟨b, e1, e2, e3⟩ | ⟨e1, e2, ext, e3⟩)
                · exact .inl ⟨b, e1, str_doc e2, e3⟩
                · exact .inr ⟨e1, e2, ext, str_doc e3⟩
    · intro curs inp acc
      cases inp with
      | nil => rw [listT]; exact ⟨.inr ⟨[], .nil⟩, .inl (Nat.le_refl _)⟩
      | cons c r =>
        rw [listT]
        split
        · rename_i h
          subst h
          exact ⟨[], rfl, .nil, rfl⟩
        · rename_i hc
          refine Fine.bind (Q := Took curs (c :: r) IsDoc)
            (Fine.shift (b := []) (by simp) (fun p hp => ⟨[], by simpa using Items.cons p [] hp .nil⟩) (fun p h1 h2 h3 => never_first hc h1 h2 h3) (fun e p h => tells_append _ h) (fun a h => h)
              (ihV curs (c :: r))) ?_
          rintro ⟨v, c', q⟩ (⟨b, e1, e2, e3⟩ | ⟨e1, e2, ext, e3⟩)
          · simp only at e1 e3 ⊢
            subst e3
            refine Fine.shift (b := b) e1 (fun p hp => ⟨[], by simpa using Items.cons b p e2 hp⟩) (fun p _ _ h => never_item e2 h) (fun e p h => tells_append _ h) ?_ (ihL (curs + b.length) q _)
            rintro ⟨vs, c', q'⟩ ⟨b', h1, h2, h3⟩
            simp only at h1 h3 ⊢
            exact ⟨b ++ b', by rw [e1, h1]; simp, .cons _ _ e2 h2, by rw [h3]; simp; omega⟩
          · simp only at e1 e2 ⊢
            subst e1
            cases f with
            | zero => rw [listT]; trivial
            | succ f => rw [listT]; exact ⟨.inr ⟨ext, by simpa using Items.cons _ _ e3 .nil⟩, .inl (by omega)⟩
    · intro curs inp acc
      cases inp with
      | nil => rw [dictT]; exact ⟨.inr ⟨[], .nil⟩, .inl (Nat.le_refl _)⟩
      | cons c r =>
        rw [dictT]
        have entry : ∀ k b, IsStr k → IsDoc b → Entries (k ++ b) := fun k b hk hb => by simpa using Entries.cons k b [] hk hb .nil
        split
        · rename_i h
          subst h
          exact ⟨[], rfl, .nil, rfl⟩
        · rename_i hc
          refine Fine.bind (Q := Took curs (c :: r) IsStr)
            (Fine.shift (b := []) (by simp) (fun p hp => ⟨[48, 58], entry p [48, 58] hp (str_doc strZero)⟩) (fun p h1 h2 h3 => never_key hc h1 h2 h3) (fun e p h => tells_append _ h) (fun a h => h)
              (string_fine sp curs (c :: r))) ?_
          rintro ⟨k, c', q⟩ (⟨kb, e1, e2, e3⟩ | ⟨e1, e2, ext, e3⟩)
          · simp only at e1 e3 ⊢
            subst e3
            refine Fine.bind (Q := Took (curs + kb.length) q IsDoc)
              (Fine.shift (b := kb) e1 (fun p hp => ⟨[], by simpa using entry _ _ e2 hp⟩) ?_ (fun e p h => tells_append _ h) (fun a h => h) (ihV (curs + kb.length) q)) ?_
            · intro p _ _ hn g sp' ext acc v r h
              rw [List.append_assoc] at h
              obtain ⟨g', w, r1, acc', h1, h2⟩ := dict_key e2 h
              exact hn _ _ _ _ _ h1
            · rintro ⟨v, c', q2⟩ (⟨b, g1, g2, g3⟩ | ⟨g1, g2, ext, g3⟩)
              · simp only at g1 g3 ⊢
                subst g3
                refine Fine.shift (b := kb ++ b) (r := q2) (by rw [e1, g1]; simp) (fun p hp => ⟨[], by simpa using Entries.cons kb b p e2 g2 hp⟩) ?_ (fun e p h => tells_append _ h) ?_
                  (by rw [List.length_append, ← Nat.add_assoc]; exact ihD (curs + kb.length + b.length) q2 _)
                · intro p _ _ hn g sp' ext acc v r h
                  rw [List.append_assoc, List.append_assoc] at h
                  obtain ⟨g', w, r1, acc', h1, h2⟩ := dict_key e2 h
                  cases doc_rest g2 h1
                  exact hn _ _ _ _ _ _ h2
                · rintro ⟨vs, c', q'⟩ ⟨b', h1, h2, h3⟩
                  simp only at h1 h3 ⊢
                  exact ⟨kb ++ (b ++ b'), by rw [e1, g1, h1]; simp, .cons _ _ _ e2 g2 h2, by rw [h3]; simp; omega⟩
              · simp only at g1 g2 ⊢
                subst g1
                cases f with
                | zero => rw [dictT]; trivial
                | succ f =>
                  rw [dictT]
                  refine ⟨.inr ⟨ext, ?_⟩, .inl (by rw [e1, List.length_append]; omega)⟩
                  rw [e1, List.append_assoc]
                  exact entry _ _ e2 g3
          · simp only at e1 e2 ⊢
            subst e1
            cases f with
            | zero => rw [valueT]; trivial
            | succ f =>
              rw [valueT]
              refine ⟨.inr ⟨ext ++ [48, 58], ?_⟩, .inl (by omega)⟩
              rw [← List.append_assoc]
              exact entry _ _ e3 (str_doc strZero)

end Verif.DecodeText
