import Verif.Lemmas.OptsSize
/-
Properties C107 and C108: what is said about a command line that is refused.
-/
set_option autoImplicit false

namespace Verif.OptsText
open Verif.Utils Verif.Bencode Verif.Flags Verif.Args Verif.Size Spec

/-! ### C107: arguments -/

/-- **C107**: the model with texts starts the program for the same command lines, with the same options and the same exit status. -/
theorem C107_same (args : List Bytes) :
    (∀ o, startT args = .run o ↔ main args = .swarm o ∨ main args = .info o) ∧ (startT args = .help ↔ main args = .exit 0) ∧
    ((∃ l, startT args = .refused l) ↔ main args = .exit 2) ∧ ((∃ e, startT args = .panic e) ↔ main args = .panic) := by
  unfold startT main initOpts
  rw [parse_eq _ args defaults (Nat.le_refl _)]
  cases parseArgsT defaults args with
  | help => simp
  | fail l => simp
  | ok o =>
    simp only
    have hv := validate_eq o
    cases ho : validateT o with
    | ok o' =>
      have h1 := (hv o').mp ho
      rw [h1]
      have hcmd : o'.cmd = ascii "swarm" ∨ o'.cmd = ascii "info" := by
        have e : o'.cmd = o.cmd := by
          unfold validateT at ho
          split at ho
          · cases ho
          · split at ho
            · cases ho
            · split at ho
              · cases ho
              · split at ho
                · cases ho
                · cases ho; rfl
        rw [e]
        by_cases h : o.cmd = ascii "swarm" ∨ o.cmd = ascii "info"
        · exact h
        · exfalso
          unfold validateT at ho
          split at ho
          · cases ho
          · cases ho
      simp only [StartT.run.injEq, reduceCtorEq, false_iff, exists_false]
      rcases hcmd with h | h
      · simp [h]
      · rw [if_neg (by rw [h]; decide), if_pos h]; simp
    | error e =>
      cases h1 : o.Validate with
      | ok o' => rw [(hv o').mpr h1] at ho; cases ho
      | err e' => simp
      | panic => simp
      | timeout => simp

example : startT [ascii "-i", ascii "t"] = .run { defaults with input := ascii "t", uplim := -1, dnlim := -1 } := by decide +kernel

/-- **C107**: a command line is refused in `flag.Parse` exactly if an argument is wrong; then the first thing that is wrong is said in one line, which is followed by
the usage. -/
theorem C107_exact (other : Bytes → Bytes) (prog : Bytes) (args : List Bytes) (line : Bytes) :
    (∃ l, startT args = .refused l ∧ (startT args).stderr other prog = line ++ ascii "\n" ++ usage prog) ↔ Fault (quote other) args line := by
  have hs : ∀ l, startT args = .refused l ↔ parseArgsT defaults args = .fail l := by
    intro l
    unfold startT
    cases parseArgsT defaults args with
    | help => simp
    | fail l => simp
    | ok o => simp only [reduceCtorEq, iff_false]; cases validateT o <;> simp
  constructor
  · rintro ⟨l, h1, h2⟩
    rw [h1] at h2
    have h3 := List.append_cancel_right (List.append_cancel_right h2)
    rw [← h3]
    exact fault_to other _ args defaults l (Nat.le_refl _) ((hs l).mp h1)
  · intro h
    obtain ⟨l, h1, h2⟩ := fault_from other args defaults line h
    refine ⟨l, (hs l).mpr h1, ?_⟩
    rw [(hs l).mpr h1, ← h2]
    rfl

/-- an instance: `-i t --p=60x -q`; the second option is reported with its value -/
example (other : Bytes → Bytes) (prog : Bytes) : (startT [ascii "-i", ascii "t", ascii "--p=60x", ascii "-q"]).stderr other prog =
    ascii "invalid value \"60x\" for flag -p: parse error" ++ ascii "\n" ++ usage prog := by
  rw [show startT [ascii "-i", ascii "t", ascii "--p=60x", ascii "-q"] = .refused (.value (ascii "60x") (ascii "p") .garbled) by decide +kernel]
  simp only [StartT.stderr, Line.text]
  rw [show quote other (ascii "60x") = ascii "\"60x\"" by unfold quote; rw [if_pos (by decide +kernel)]; decide +kernel]
  congr 2

/-- an instance: what is said about the other kinds of wrong arguments -/
example (other : Bytes → Bytes) (prog : Bytes) :
    (startT [ascii "---i"]).stderr other prog = ascii "bad flag syntax: ---i" ++ ascii "\n" ++ usage prog ∧
    (startT [ascii "-i", ascii "t", ascii "-port=1"]).stderr other prog = ascii "flag provided but not defined: -port" ++ ascii "\n" ++ usage prog ∧
    (startT [ascii "-i"]).stderr other prog = ascii "flag needs an argument: -i" ++ ascii "\n" ++ usage prog := by
  rw [show startT [ascii "---i"] = .refused (.badSyntax (ascii "---i")) by decide +kernel,
    show startT [ascii "-i", ascii "t", ascii "-port=1"] = .refused (.undefined (ascii "port")) by decide +kernel,
    show startT [ascii "-i"] = .refused (.needs (ascii "i")) by decide +kernel]
  exact ⟨rfl, rfl, rfl⟩

/-- **C107**: a number that is too large is told from one that is none.  (The text of a number may have more behind the digits that are too many.) -/
theorem C107_numbers (s w : Bytes) : (∃ e : NumWhy, parseUintT s = .error e ∧ e.text = w) ↔ BadNumber s w := (bad_iff s w).symm

example : BadNumber (ascii "18446744073709551616") (ascii "value out of range") ∧ BadNumber (ascii "1__0") (ascii "parse error") ∧
    BadNumber (ascii "0x1FFFFFFFFFFFFFFFFz") (ascii "value out of range") ∧ ¬ ∃ w, BadNumber (ascii "0x_1F") w :=
  ⟨(bad_iff _ _).mpr ⟨.range, by decide +kernel, rfl⟩, (bad_iff _ _).mpr ⟨.garbled, by decide +kernel, rfl⟩, (bad_iff _ _).mpr ⟨.range, by decide +kernel, rfl⟩,
    fun ⟨w, h⟩ => by obtain ⟨e, he, -⟩ := (bad_iff _ _).mp h; rw [show parseUintT (ascii "0x_1F") = .ok 31 by decide +kernel] at he; cases he⟩

/-- **C107**: exactly the command lines that ask for it get the usage alone, and the exit status is 0. -/
theorem C107_help (other : Bytes → Bytes) (prog : Bytes) (args : List Bytes) :
    (AsksHelp args ↔ startT args = .help) ∧ (AsksHelp args → main args = .exit 0 ∧ (startT args).stderr other prog = usage prog) := by
  have h : AsksHelp args ↔ startT args = .help := by
    rw [← help_iff args.length args defaults (Nat.le_refl _)]
    unfold startT
    cases parseArgsT defaults args with
    | help => simp
    | fail l => simp
    | ok o => simp only [reduceCtorEq, false_iff]; cases validateT o <;> simp
  refine ⟨h, fun ha => ?_⟩
  have := h.mp ha
  exact ⟨(C107_same args).2.1.mp this, by rw [this]; rfl⟩

example : AsksHelp [ascii "-i", ascii "t", ascii "--help=1", ascii "-q"] := (C107_help id [] _).1.mpr (by decide +kernel)

/-- the options as they are documented: name, kind, what it is, default as a Go literal -/
def table : List (Bytes × Bytes × Bytes × Bytes) :=
  [(ascii "cmd", ascii "string", ascii "Command", ascii "\"swarm\""), (ascii "d", ascii "string", ascii "Download limit in form X[B|K|M|G]", ascii "\"-1B\""),
   (ascii "i", ascii "string", ascii "Path to .torrent file", []), (ascii "p", ascii "uint", ascii "Port to listen on", ascii "60666"),
   (ascii "u", ascii "string", ascii "Upload limit in form X[B|K|M|G]", ascii "\"-1B\""), (ascii "w", ascii "string", ascii "Working directory", [])]

/-- **C107**: the usage has the name of the program and one entry for each option, with kind, meaning and default, in the order of their names. -/
theorem C107_usage (prog : Bytes) : usage prog = ascii "Usage of " ++ prog ++ ascii ":\n" ++ table.flatMap (fun x =>
      ascii "  -" ++ x.1 ++ ascii " " ++ x.2.1 ++ ascii "\n    \t" ++ x.2.2.1 ++ (if x.2.2.2 = [] then [] else ascii " (default " ++ x.2.2.2 ++ ascii ")") ++ ascii "\n") ∧
    (∀ name, name ∈ names ↔ name ∈ table.map (·.1)) := by
  constructor
  · unfold usage
    exact congrArg (ascii "Usage of " ++ prog ++ ascii ":\n" ++ ·) (by decide +kernel)
  · have h1 : ∀ x ∈ names, x ∈ table.map (·.1) := by decide +kernel
    have h2 : ∀ x ∈ table.map (·.1), x ∈ names := by decide +kernel
    exact fun name => ⟨h1 name, h2 name⟩

theorem quoteChar_iff (c : UInt8) (h : c < 128) (q : Bytes) : QuotedChar c q ↔ quoteChar c = q := by
  have key : ∀ n : Fin 128, (32 ≤ n.val ∧ n.val < 127 ∧ n.val ≠ 34 ∧ n.val ≠ 92 ∧ quoteChar (UInt8.ofNat n.val) = [UInt8.ofNat n.val]) ∨
      ((n.val = 34 ∨ n.val = 92) ∧ quoteChar (UInt8.ofNat n.val) = [92, UInt8.ofNat n.val]) ∨
      (∃ l ∈ ascii "abtnvfr", (UInt8.ofNat n.val, l) ∈ [((7 : UInt8), (97 : UInt8)), (8, 98), (9, 116), (10, 110), (11, 118), (12, 102), (13, 114)] ∧
        quoteChar (UInt8.ofNat n.val) = [92, l]) ∨
      ((n.val < 7 ∨ 13 < n.val ∧ n.val < 32 ∨ n.val = 127) ∧ quoteChar (UInt8.ofNat n.val) = [92, 120, hexDigit (n.val / 16), hexDigit (n.val % 16)]) := by
    decide +kernel
  have hexd : ∀ d : Fin 16, hexDigit d.val ∈ ascii "0123456789abcdef" ∧ digitOf (hexDigit d.val) = some d.val := by decide +kernel
  have hexu : ∀ x ∈ ascii "0123456789abcdef", ∀ d : Fin 36, digitOf x = some d.val → x = hexDigit d.val ∧ d.val < 16 := by decide +kernel
  have hlt : c.toNat < 128 := by rw [UInt8.lt_iff_toNat_lt] at h; exact h
  have hc : UInt8.ofNat c.toNat = c := by simp
  have hk := key ⟨c.toNat, hlt⟩
  simp only [hc] at hk
  have n34 : c = 34 ↔ c.toNat = 34 := by rw [← UInt8.toNat_inj]; rfl
  have n92 : c = 92 ↔ c.toNat = 92 := by rw [← UInt8.toNat_inj]; rfl
  have letters : ∀ l, (c, l) ∈ [((7 : UInt8), (97 : UInt8)), (8, 98), (9, 116), (10, 110), (11, 118), (12, 102), (13, 114)] →
      7 ≤ c.toNat ∧ c.toNat ≤ 13 ∧ quoteChar c = [92, l] := by
    intro l hl
    simp only [List.mem_cons, Prod.mk.injEq, List.mem_nil_iff, or_false] at hl
    rcases hl with ⟨rfl, rfl⟩ | ⟨rfl, rfl⟩ | ⟨rfl, rfl⟩ | ⟨rfl, rfl⟩ | ⟨rfl, rfl⟩ | ⟨rfl, rfl⟩ | ⟨rfl, rfl⟩ <;> decide
  constructor
  · intro hq
    cases hq with
    | plain hp h1 h2 =>
      rcases hk with ⟨-, -, -, -, e⟩ | ⟨e, -⟩ | ⟨l, -, e, -⟩ | ⟨e, -⟩
      · exact e
      · rw [ne_eq, n34] at h1; rw [ne_eq, n92] at h2; omega
      · have := letters l e; omega
      · omega
    | escaped hp =>
      rw [n34, n92] at hp
      rcases hk with ⟨-, -, e1, e2, -⟩ | ⟨-, e⟩ | ⟨l, -, e, -⟩ | ⟨e, -⟩
      · omega
      · exact e
      · have := letters l e; omega
      · omega
    | letter l hl => exact (letters l hl).2.2
    | hex x y hr hx hy dx dy h1 h2 hc' =>
      have e1 := (digitOf_iff x dx).mpr h1
      have e2 := (digitOf_iff y dy).mpr h2
      have b1 : dx < 36 := by unfold DigitVal at h1; omega
      have b2 : dy < 36 := by unfold DigitVal at h2; omega
      obtain ⟨u1, v1⟩ := hexu x hx ⟨dx, b1⟩ e1
      obtain ⟨u2, v2⟩ := hexu y hy ⟨dy, b2⟩ e2
      simp only at u1 u2 v1 v2
      rcases hk with ⟨e, e', -⟩ | ⟨e, -⟩ | ⟨l, -, e, -⟩ | ⟨-, e⟩
      · omega
      · omega
      · have := letters l e; omega
      · rw [e, u1, u2, show c.toNat / 16 = dx by omega, show c.toNat % 16 = dy by omega]
  · rintro rfl
    rcases hk with ⟨e1, e2, e3, e4, e⟩ | ⟨e1, e⟩ | ⟨l, -, e1, e⟩ | ⟨e1, e⟩
    · rw [e]; exact .plain c ⟨e1, e2⟩ (by rw [ne_eq, n34]; exact e3) (by rw [ne_eq, n92]; exact e4)
    · rw [e]; exact .escaped c (by rw [n34, n92]; exact e1)
    · rw [e]; exact .letter c l e1
    · rw [e]
      obtain ⟨a1, a2⟩ := hexd ⟨c.toNat / 16, by omega⟩
      obtain ⟨a3, a4⟩ := hexd ⟨c.toNat % 16, by omega⟩
      exact .hex c _ _ e1 a1 a3 (c.toNat / 16) (c.toNat % 16) ((digitOf_iff _ _).mp a2) ((digitOf_iff _ _).mp a4) (by omega)

/-- **C107**: values are shown between quotation marks, with the escapes of Go. -/
theorem C107_quoted (other : Bytes → Bytes) (s q : Bytes) (h : ∀ c ∈ s, c < 128) : quote other s = ascii "\"" ++ q ++ ascii "\"" ↔ QuotedChars s q := by
  have d : ascii "\"" = [34] := by decide
  unfold quote
  rw [if_pos h, d]
  constructor
  · intro e
    have e' := List.append_cancel_left (List.append_cancel_right e)
    clear e d
    subst e'
    induction s with
    | nil => exact .nil
    | cons c s ih =>
      rw [List.flatMap_cons]
      exact .cons c s _ _ ((quoteChar_iff c (h c (by simp)) _).mpr rfl) (ih (fun x hx => h x (by simp [hx])))
  · intro hq
    congr 2
    clear d
    induction hq with
    | nil => rfl
    | cons c s q t hc _ ih =>
      rw [List.flatMap_cons, ih (fun x hx => h x (by simp [hx])), (quoteChar_iff c (h c (by simp)) q).mp hc]

/-- **C107**: and so different values are shown differently, in one line. -/
theorem C107_value (other : Bytes → Bytes) (s t : Bytes) (hs : ∀ c ∈ s, c < 128) (ht : ∀ c ∈ t, c < 128) :
    (quote other s = quote other t → s = t) ∧ 10 ∉ quote other s := by
  -- no code is the beginning of another one
  have pre : ∀ a b : Fin 128, a ≠ b → ¬ (quoteChar (UInt8.ofNat a.val)).isPrefixOf (quoteChar (UInt8.ofNat b.val)) := by decide +kernel
  have nl : ∀ a : Fin 128, 10 ∉ quoteChar (UInt8.ofNat a.val) ∧ quoteChar (UInt8.ofNat a.val) ≠ [] := by decide +kernel
  have code : ∀ c : UInt8, c < 128 → ∃ a : Fin 128, c = UInt8.ofNat a.val := by
    intro c hc
    rw [UInt8.lt_iff_toNat_lt] at hc
    exact ⟨⟨c.toNat, hc⟩, by simp⟩
  constructor
  · intro h
    unfold quote at h
    rw [if_pos hs, if_pos ht] at h
    have h' := List.append_cancel_left (List.append_cancel_right h)
    clear h
    induction s generalizing t with
    | nil =>
      cases t with
      | nil => rfl
      | cons d t =>
        obtain ⟨a, rfl⟩ := code d (ht d (by simp))
        rw [List.flatMap_nil, List.flatMap_cons] at h'
        exact absurd (List.append_eq_nil_iff.mp h'.symm).1 (nl a).2
    | cons c s ih =>
      obtain ⟨a, rfl⟩ := code c (hs c (by simp))
      cases t with
      | nil =>
        rw [List.flatMap_nil, List.flatMap_cons] at h'
        exact absurd (List.append_eq_nil_iff.mp h').1 (nl a).2
      | cons d t =>
        obtain ⟨b, rfl⟩ := code d (ht d (by simp))
        rw [List.flatMap_cons, List.flatMap_cons] at h'
        have hab : a = b := by
          by_cases hab : a = b
          · exact hab
          · exfalso
            rcases List.append_eq_append_iff.mp h' with ⟨x, hx, -⟩ | ⟨x, hx, -⟩
            · exact pre a b hab (List.isPrefixOf_iff_prefix.mpr ⟨x, hx.symm⟩)
            · exact pre b a (Ne.symm hab) (List.isPrefixOf_iff_prefix.mpr ⟨x, hx.symm⟩)
        subst hab
        rw [ih t (fun x hx => hs x (by simp [hx])) (fun x hx => ht x (by simp [hx])) (List.append_cancel_left h')]
  · unfold quote
    rw [if_pos hs]
    simp only [List.mem_append, List.mem_cons, List.mem_nil_iff, or_false, List.mem_flatMap, not_or, not_exists, not_and]
    refine ⟨⟨by decide, ?_⟩, by decide⟩
    intro c hc
    obtain ⟨a, rfl⟩ := code c (hs c hc)
    exact (nl a).1

example : quote id [97, 34, 10, 127] = ascii "\"a\\\"\\n\\x7f\"" := by decide +kernel

/-! ### C108: settings -/

/-- **C108**, exact: `Validate` refuses a command line exactly if there is something wrong with its settings, and says the first thing; the program panics with that text. -/
theorem C108_exact (other : Bytes → Bytes) (prog : Bytes) (args : List Bytes) (t : Bytes) :
    (∃ e, startT args = .panic e ∧ (startT args).stderr other prog = ascii "panic: " ++ t ++ ascii "\n") ↔
    ∃ l, CmdLine args l ∧ (∀ v, (ascii "p", v) ∈ l → GoodNumber v) ∧ Complaint l t := by
  constructor
  · rintro ⟨e, h1, h2⟩
    rw [h1] at h2
    have h3 := List.append_cancel_left (List.append_cancel_right h2)
    unfold startT at h1
    cases hp : parseArgsT defaults args with
    | help => rw [hp] at h1; cases h1
    | fail l => rw [hp] at h1; cases h1
    | ok o =>
      rw [hp] at h1
      simp only at h1
      obtain ⟨l, c1, c2, c3⟩ := parsed_to args o hp
      refine ⟨l, c1, c2, (validate_error l o c3 t).mp ⟨e, ?_, h3⟩⟩
      cases hv : validateT o with
      | ok o' => rw [hv] at h1; cases h1
      | error e' => rw [hv] at h1; cases h1; rfl
  · rintro ⟨l, c1, c2, c3⟩
    obtain ⟨o, hp, hf⟩ := parsed_from args l c1 c2
    obtain ⟨e, he, rfl⟩ := (validate_error l o hf t).mpr c3
    have : startT args = .panic e := by unfold startT; rw [hp]; simp only; rw [he]
    exact ⟨e, this, by rw [this]; rfl⟩

example (other : Bytes → Bytes) (prog : Bytes) : (startT [ascii "-i", ascii "t", ascii "-cmd", ascii "seed", ascii "-u=x"]).stderr other prog =
    ascii "panic: " ++ ascii "invalid command given, [seed]" ++ ascii "\n" := by
  rw [show startT [ascii "-i", ascii "t", ascii "-cmd", ascii "seed", ascii "-u=x"] = .panic (.command (ascii "seed")) by decide +kernel]
  rfl

/-- **C108**: `Validate` returns the options, with the two limits, or an error with a text; it never panics itself. -/
theorem C108_validate (o : Opts) : (∃ o', o.Validate = .ok o' ∧ validateT o = .ok o') ∨ ∃ e x, o.Validate = .err e ∧ validateT o = .error x := by
  cases h : validateT o with
  | ok o' => exact .inl ⟨o', (validate_eq o o').mp h, rfl⟩
  | error x =>
    refine .inr ?_
    have hn : ∀ o', o.Validate ≠ .ok o' := fun o' h' => by rw [(validate_eq o o').mpr h'] at h; cases h
    unfold Opts.Validate at hn ⊢
    split
    · exact ⟨_, _, rfl, rfl⟩
    · rename_i hi
      rw [if_neg hi, if_neg hi] at hn
      split
      · exact ⟨_, _, rfl, rfl⟩
      · rename_i hc
        rw [if_neg hc] at hn
        rcases size_answers o.uplimStr with ⟨u, hu⟩ | ⟨e, he⟩
        · rcases size_answers o.dnlimStr with ⟨d, hd⟩ | ⟨e, he⟩
          · exact absurd (by rw [hu, hd]; rfl) (hn { o with uplim := u, dnlim := d })
          · rw [hu, he]; exact ⟨e, _, rfl, rfl⟩
        · rw [he]; exact ⟨e, _, rfl, rfl⟩

example : ∃ e, ({ defaults with input := [] } : Opts).Validate = .err e := by
  rcases C108_validate { defaults with input := [] } with ⟨o', h, -⟩ | ⟨e, -, h, -⟩
  · exact absurd h (by unfold Opts.Validate; simp)
  · exact ⟨e, h⟩

/-- **C108**: what is said about sizes. -/
theorem C108_sizes (s t : Bytes) : (∃ e, parseSizeUnitsT s = .error e ∧ e.text = t) ↔ BadSize s t := (badSize_iff s t).symm

example : BadSize [] (ascii "empty string") ∧ BadSize (ascii "9223372036854775808K") (ascii "strconv.Atoi: parsing \"9223372036854775808\": value out of range") ∧
    BadSize (ascii "10KB") (ascii "invalid format") ∧ BadSize (ascii "10T") (ascii "invalid units") ∧ BadSize [49, 196, 177] (ascii "invalid units") ∧
    BadSize [49, 195, 169] (ascii "invalid format") :=
  ⟨(badSize_iff _ _).mpr ⟨.empty, size_nil, rfl⟩,
    (badSize_iff _ _).mpr ⟨.atoi (ascii "9223372036854775808"), by
      have := size_parts [] (ascii "9223372036854775808") (ascii "K") (.inl rfl) (by decide +kernel) (by decide +kernel) (by decide +kernel) (fun _ h => absurd h (by decide +kernel))
      obtain ⟨m, hm⟩ := this
      rw [show parseDigits (ascii "9223372036854775808") = none by decide +kernel] at hm
      exact hm, by decide +kernel⟩,
    .format [] (ascii "10") (ascii "KB") (.inl rfl) (by decide) (by decide +kernel) (by decide +kernel) (by decide +kernel) (by decide)
      (by rintro (⟨c, h, -⟩ | h | h) <;> exact absurd h (by first | (intro h; simp [ascii] at h) | decide)),
    .units [] (ascii "10") (ascii "T") (.inl rfl) (by decide) (by decide +kernel) (by decide +kernel) (by decide +kernel) (.inl ⟨84, by decide, by decide⟩)
      (fun k hk => by
        have := (unit_char 84).mp ⟨k, hk⟩
        exact absurd this (by decide)),
    .units [] [49] [196, 177] (.inl rfl) (by decide) (by decide +kernel) (by decide +kernel) (by decide +kernel) (.inr (.inl rfl)) (fun k hk => by cases hk),
    .format [] [49] [195, 169] (.inl rfl) (by decide) (by decide +kernel) (by decide +kernel) (by decide +kernel) (by decide)
      (by rintro (⟨c, h, -⟩ | h | h) <;> cases h)⟩

/-- **C108** refuted: a missing working directory is never reported, although there is a text for it; the program starts without one. -/
theorem C108_refuted_wd : (∀ args e, startT args = .panic e → e.text ≠ ascii "missing argument 'working directory'") ∧
    ∃ o, startT [ascii "-i", ascii "t"] = .run o ∧ o.wd = [] := by
  constructor
  · intro args e h ht
    have h2 := (C108_exact id [] args _).mp ⟨e, h, by rw [h]; rfl⟩
    rw [ht] at h2
    obtain ⟨l, -, -, hc⟩ := h2
    generalize hx : ascii "missing argument 'working directory'" = x at hc
    have size : ∀ s t, BadSize s t → t ≠ ascii "missing argument 'working directory'" := by
      intro s t hb ht
      have hh := congrArg List.head? ht
      cases hb with
      | empty => revert hh; decide +kernel
      | noNumber => revert hh; decide +kernel
      | large sign ds s =>
        rw [List.append_assoc, show ascii "strconv.Atoi: parsing \"" = 115 :: ascii "trconv.Atoi: parsing \"" by decide +kernel, List.cons_append, List.head?_cons] at hh
        revert hh; decide +kernel
      | format => revert hh; decide +kernel
      | units => revert hh; decide +kernel
    cases hc with
    | input => exact absurd hx (by decide +kernel)
    | command c =>
      have := congrArg List.head? hx
      rw [show ascii "invalid command given, [" = 105 :: ascii "nvalid command given, [" by decide +kernel, List.append_assoc, List.cons_append, List.head?_cons] at this
      revert this; decide +kernel
    | up _ _ _ hb => exact size _ _ hb hx.symm
    | down _ _ _ _ hb => exact size _ _ hb hx.symm
  · exact ⟨{ defaults with input := ascii "t", uplim := -1, dnlim := -1 }, by decide +kernel, rfl⟩

/-- **C108** refuted: it is not said which of the two limits is wrong. -/
theorem C108_refuted_which (other : Bytes → Bytes) (prog v : Bytes) (h : ¬ GoodSize v) :
    (startT [ascii "-i", ascii "t", ascii "-u", v]).stderr other prog = (startT [ascii "-i", ascii "t", ascii "-d", v]).stderr other prog ∧
    ∃ e, startT [ascii "-i", ascii "t", ascii "-u", v] = .panic e := by
  have hv : ∃ e, parseSizeUnitsT v = .error e := by
    cases hp : parseSizeUnitsT v with
    | error e => exact ⟨e, rfl⟩
    | ok x => exact absurd ((goodSize_iff v).mpr ⟨x, hp⟩) h
  obtain ⟨e, he⟩ := hv
  have a1 : parseArgT (ascii "-i") = .flag .i (ascii "i") none := by decide +kernel
  have a2 : parseArgT (ascii "-u") = .flag .u (ascii "u") none := by decide +kernel
  have a3 : parseArgT (ascii "-d") = .flag .d (ascii "d") none := by decide +kernel
  have p1 : parseArgsT defaults [ascii "-i", ascii "t", ascii "-u", v] = .ok { defaults with input := ascii "t", uplimStr := v } := by
    rw [parseArgsT.eq_def]; simp only [a1, setFlagT]; rw [parseArgsT.eq_def]; simp only [a2, setFlagT]; rw [parseArgsT.eq_def]
  have p2 : parseArgsT defaults [ascii "-i", ascii "t", ascii "-d", v] = .ok { defaults with input := ascii "t", dnlimStr := v } := by
    rw [parseArgsT.eq_def]; simp only [a1, setFlagT]; rw [parseArgsT.eq_def]; simp only [a3, setFlagT]; rw [parseArgsT.eq_def]
  have d : ∃ x, parseSizeUnitsT (ascii "-1B") = .ok x := (goodSize_iff _).mp ⟨1, -1, by
    have := Denotes.minus (ascii "1") (ascii "B") 1 (by decide +kernel) (by decide +kernel) (.bytes 66 (by decide))
    rw [show decVal (ascii "1") = 1 by decide +kernel, show ascii "-" ++ ascii "1" ++ ascii "B" = ascii "-1B" by decide +kernel] at this
    exact this, by decide⟩
  obtain ⟨x, hx⟩ := d
  have v1 : startT [ascii "-i", ascii "t", ascii "-u", v] = .panic (.size e) := by
    unfold startT; rw [p1]
    simp only [validateT, defaults]
    rw [if_neg (by decide), if_neg (by decide), if_neg (by decide +kernel), he]
  have v2 : startT [ascii "-i", ascii "t", ascii "-d", v] = .panic (.size e) := by
    unfold startT; rw [p2]
    simp only [validateT, defaults]
    rw [if_neg (by decide), if_neg (by decide), if_neg (by decide +kernel), hx]
    simp only
    rw [he]
  exact ⟨by rw [v1, v2], _, v1⟩

example : ¬ GoodSize (ascii "10T") := by
  rw [goodSize_iff]
  rintro ⟨v, hv⟩
  have h : BadSize (ascii "10T") (ascii "invalid units") :=
    .units [] (ascii "10") (ascii "T") (.inl rfl) (by decide) (by decide +kernel) (by decide +kernel) (by decide +kernel) (.inl ⟨84, by decide, by decide⟩)
      (fun k hk => absurd ((unit_char 84).mp ⟨k, hk⟩) (by decide))
  obtain ⟨e, he, -⟩ := (badSize_iff _ _).mp h
  rw [hv] at he; cases he

/-- **C108** refuted: nothing of a size that starts with a letter is shown, it is always the empty string that is said to be wrong. -/
theorem C108_refuted_shown (s : Bytes) (c : UInt8) (h : s.head? = some c) (hc : ¬ (48 ≤ c ∧ c ≤ 57)) (h45 : c ≠ 45) :
    BadSize s (ascii "strconv.Atoi: parsing \"\": invalid syntax") ∧ ∀ t, BadSize s t → t = ascii "strconv.Atoi: parsing \"\": invalid syntax" := by
  have hb : BadSize s (ascii "strconv.Atoi: parsing \"\": invalid syntax") := by
    refine .noNumber [] s (.inl rfl) ?_ ?_ ?_
    · intro e
      rw [List.nil_append] at e
      rw [e] at h; cases h
    · intro d hd
      rw [h] at hd; cases hd; exact hc
    · intro _
      rw [h]; simpa using h45
  refine ⟨hb, fun t ht => ?_⟩
  obtain ⟨e, h1, h2⟩ := (badSize_iff _ _).mp hb
  obtain ⟨e', h3, h4⟩ := (badSize_iff _ _).mp ht
  rw [h1] at h3
  cases h3
  rw [← h4, h2]

example : (ascii "K10").head? = some 75 := by decide

/-- **C108** refuted: the command is shown as it is, so the message may have more lines than one. -/
theorem C108_refuted_lines (other : Bytes → Bytes) (prog : Bytes) : ∃ c, (startT [ascii "-i", ascii "t", ascii "-cmd", c]).stderr other prog =
    ascii "panic: invalid command given, [swarm]\npanic: missing argument 'input'\n]\n" := by
  refine ⟨ascii "swarm]\npanic: missing argument 'input'\n", ?_⟩
  rw [show startT [ascii "-i", ascii "t", ascii "-cmd", ascii "swarm]\npanic: missing argument 'input'\n"] =
    .panic (.command (ascii "swarm]\npanic: missing argument 'input'\n")) by decide +kernel]
  simp only [StartT.stderr, Invalid.text]
  decide +kernel

end Verif.OptsText
