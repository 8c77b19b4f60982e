import Verif.Spec.RateLive
import Verif.Props.RateLimit
/-
Property C90: the limit for writing is used fully, and every write gets through (/repo/src/io/ratelimit.go).  C53 is the other half: not more
is admitted than the limit says.
-/
set_option autoImplicit false

namespace Verif.RateLimit
open Verif.RateSpec

/-! ### what a step does -/

/-- how many steps a call has left, at most -/
def rank : Pc → Nat
  | .idle => 0
  | .start _ => 7
  | .direct _ => 3
  | .directUsed _ => 2
  | .directTotal _ => 1
  | .wantLock _ => 6
  | .spin _ => 5
  | .admit _ => 4
  | .unlock _ => 3
  | .addTotal _ => 2
  | .out _ => 1
  | .setWant _ => 3
  | .setHold _ => 2
  | .setUnlock => 1

theorem rank_le (p : Pc) : rank p ≤ 7 := by cases p <;> simp [rank]
theorem rank_pos (p : Pc) (h : p ≠ .idle) : 0 < rank p := by cases p <;> simp_all [rank]

/-- every step is a tick or a step of one goroutine, which comes nearer to the end of its call unless it begins one -/
theorem step_one {s s' : State} {l : Label} (hs : Step s l s') :
    (l = .tick ∧ s' = { s with used := 0 }) ∨
    ∃ t, l ≠ .tick ∧ (∀ u, u ≠ t → s'.pcs u = s.pcs u) ∧ (s.pcs t = .idle ∧ s'.pcs t ≠ .idle ∨ s.pcs t ≠ .idle ∧ rank (s'.pcs t) < rank (s.pcs t)) := by
  have f : ∀ (s1 : State) (t : Nat) (pc : Pc), s1.pcs = s.pcs → (∀ u, u ≠ t → (s1.go t pc).pcs u = s.pcs u) := by
    intro s1 t pc e u hu
    rw [go_pcs, if_neg hu, e]
  have g : ∀ (s1 : State) (t : Nat) (pc : Pc), (s1.go t pc).pcs t = pc := fun s1 t pc => by rw [go_pcs, if_pos rfl]
  cases hs with
  | tick => exact .inl ⟨rfl, rfl⟩
  | call t n hp => exact .inr ⟨t, by simp, f _ t _ rfl, .inl ⟨hp, by rw [g]; simp⟩⟩
  | setCall t v hp => exact .inr ⟨t, by simp, f _ t _ rfl, .inl ⟨hp, by rw [g]; simp⟩⟩
  | unlimited t n hp hr => exact .inr ⟨t, by simp, f _ t _ rfl, .inr ⟨by rw [hp]; simp, by rw [g, hp]; simp [rank]⟩⟩
  | limited t n hp hr => exact .inr ⟨t, by simp, f _ t _ rfl, .inr ⟨by rw [hp]; simp, by rw [g, hp]; simp [rank]⟩⟩
  | direct t n hp => exact .inr ⟨t, by simp, f _ t _ rfl, .inr ⟨by rw [hp]; simp, by rw [g, hp]; simp [rank]⟩⟩
  | directUsed t n hp => exact .inr ⟨t, by simp, f _ t _ rfl, .inr ⟨by rw [hp]; simp, by rw [g, hp]; simp [rank]⟩⟩
  | directTotal t n hp => exact .inr ⟨t, by simp, f _ t _ rfl, .inr ⟨by rw [hp]; simp, by rw [g, hp]; simp [rank]⟩⟩
  | lock t n hp hl => exact .inr ⟨t, by simp, f _ t _ rfl, .inr ⟨by rw [hp]; simp, by rw [g, hp]; simp [rank]⟩⟩
  | check t n hp hu => exact .inr ⟨t, by simp, f _ t _ rfl, .inr ⟨by rw [hp]; simp, by rw [g, hp]; simp [rank]⟩⟩
  | add t n hp => exact .inr ⟨t, by simp, f _ t _ rfl, .inr ⟨by rw [hp]; simp, by rw [g, hp]; simp [rank]⟩⟩
  | unlock t n hp => exact .inr ⟨t, by simp, f _ t _ rfl, .inr ⟨by rw [hp]; simp, by rw [g, hp]; simp [rank]⟩⟩
  | addTotal t n hp => exact .inr ⟨t, by simp, f _ t _ rfl, .inr ⟨by rw [hp]; simp, by rw [g, hp]; simp [rank]⟩⟩
  | out t n hp => exact .inr ⟨t, by simp, f _ t _ rfl, .inr ⟨by rw [hp]; simp, by rw [g, hp]; simp [rank]⟩⟩
  | setLock t v hp hl => exact .inr ⟨t, by simp, f _ t _ rfl, .inr ⟨by rw [hp]; simp, by rw [g, hp]; simp [rank]⟩⟩
  | setStore t v hp => exact .inr ⟨t, by simp, f _ t _ rfl, .inr ⟨by rw [hp]; simp, by rw [g, hp]; simp [rank]⟩⟩
  | setUnlock t hp => exact .inr ⟨t, by simp, f _ t _ rfl, .inr ⟨by rw [hp]; simp, by rw [g, hp]; simp [rank]⟩⟩

/-- somebody in a call who cannot go on waits for the lock or for budget -/
theorem not_canGo {s : State} {t : Nat} (hi : s.pcs t ≠ .idle) (h : ¬ CanGo s t) :
    s.lock ≠ none ∧ ((∃ n, s.pcs t = .wantLock n) ∨ ∃ v, s.pcs t = .setWant v) ∨ (∃ n, s.pcs t = .spin n) ∧ s.rate ≤ s.used := by
  have go : ∀ (l : Label) (s1 : State) (pc : Pc), Step s l (s1.go t pc) → pc = s.pcs t := by
    intro l s1 pc hs
    by_cases e : pc = s.pcs t
    · exact e
    · exact absurd ⟨l, _, hs, by rw [go_pcs, if_pos rfl]; exact e⟩ h
  cases hp : s.pcs t with
  | idle => exact absurd hp hi
  | start n =>
    by_cases hr : s.rate = NoLimit
    · have := go _ _ _ (.unlimited s t n hp hr); rw [hp] at this; cases this
    · have := go _ _ _ (.limited s t n hp hr); rw [hp] at this; cases this
  | direct n => have := go _ _ _ (.direct s t n hp); rw [hp] at this; cases this
  | directUsed n => have := go _ _ _ (.directUsed s t n hp); rw [hp] at this; cases this
  | directTotal n => have := go _ _ _ (.directTotal s t n hp); rw [hp] at this; cases this
  | wantLock n =>
    refine .inl ⟨fun hl => ?_, .inl ⟨n, rfl⟩⟩
    have := go _ _ _ (.lock s t n hp hl); rw [hp] at this; cases this
  | spin n =>
    refine .inr ⟨⟨n, rfl⟩, ?_⟩
    by_cases hu : s.used < s.rate
    · have := go _ _ _ (.check s t n hp hu); rw [hp] at this; cases this
    · omega
  | admit n => have := go _ _ _ (.add s t n hp); rw [hp] at this; cases this
  | unlock n => have := go _ _ _ (.unlock s t n hp); rw [hp] at this; cases this
  | addTotal n => have := go _ _ _ (.addTotal s t n hp); rw [hp] at this; cases this
  | out n => have := go _ _ _ (.out s t n hp); rw [hp] at this; cases this
  | setWant v =>
    refine .inl ⟨fun hl => ?_, .inr ⟨v, rfl⟩⟩
    have := go _ _ _ (.setLock s t v hp hl); rw [hp] at this; cases this
  | setHold v => have := go _ _ _ (.setStore s t v hp); rw [hp] at this; cases this
  | setUnlock => have := go _ _ _ (.setUnlock s t hp); rw [hp] at this; cases this

/-- if nobody can go on and somebody is in a call, somebody has the lock and waits for budget -/
theorem settled_spin {s : State} (he : Excl s) (h : Settled s) (t : Nat) (hi : s.pcs t ≠ .idle) : ∃ u n, s.pcs u = .spin n ∧ s.rate ≤ s.used := by
  rcases not_canGo hi (h t hi) with ⟨hl, -⟩ | ⟨⟨n, hn⟩, hu⟩
  · cases hk : s.lock with
    | none => exact absurd hk hl
    | some u =>
      have hh := (he u).mpr hk
      have hui : s.pcs u ≠ .idle := fun e => by rw [e] at hh; cases hh
      rcases not_canGo hui (h u hui) with ⟨-, ⟨n, hn⟩ | ⟨v, hv⟩⟩ | ⟨⟨n, hn⟩, hu⟩
      · rw [hn] at hh; cases hh
      · rw [hv] at hh; cases hh
      · exact ⟨u, n, hn, hu⟩
  · exact ⟨t, n, hn, hu⟩

/-! ### the limit is used fully -/

/-- **C90** (1): while the limit is `r`, at every moment of every schedule in which somebody is in a call: somebody in a call can go on, or at least
`r` bytes have been admitted since the last tick. -/
theorem C90_used_fully (r : Nat) (s : State) (ls : List Label) (h : Run (init r) ls s) (hset : ∀ t v, Label.setRate t v ∉ ls)
    (hbig : ∀ t n, Label.admit t n ∈ ls → r + n < 2 ^ 63) (t : Nat) (hi : s.pcs t ≠ .idle) :
    (∃ u, s.pcs u ≠ .idle ∧ CanGo s u) ∨ r ≤ (admitted (sinceTick ls)).sum := by
  have hl := limited_run h hset hbig
  by_cases hs : Settled s
  · obtain ⟨u, n, -, hu⟩ := settled_spin hl.excl hs t hi
    rw [hl.rate, hl.used] at hu
    exact .inr (by omega)
  · refine .inl ?_
    unfold Settled at hs
    simp only [Classical.not_forall, Classical.not_not] at hs
    obtain ⟨u, hu, hg⟩ := hs
    exact ⟨u, hu, hg⟩

/-! ### calls come to an end -/

/-- steps left of all goroutines in `P` -/
def left (s : State) : List Nat → Nat
  | [] => 0
  | t :: P => rank (s.pcs t) + left s P

theorem left_le (s : State) (P : List Nat) : left s P ≤ 7 * P.length := by
  induction P with
  | nil => simp [left]
  | cons t P ih => have := rank_le (s.pcs t); simp only [left, List.length_cons]; omega

theorem left_same {s s' : State} {P : List Nat} (h : ∀ u ∈ P, s'.pcs u = s.pcs u) : left s' P = left s P := by
  induction P with
  | nil => rfl
  | cons t P ih => rw [left, left, h t (by simp), ih (fun u hu => h u (by simp [hu]))]

theorem left_mono {s s' : State} {P : List Nat} (t : Nat) (h : ∀ u, u ≠ t → s'.pcs u = s.pcs u) (hr : rank (s'.pcs t) < rank (s.pcs t)) : left s' P ≤ left s P := by
  induction P with
  | nil => exact Nat.le_refl _
  | cons u P ih =>
    rw [left, left]
    by_cases e : u = t
    · subst e; omega
    · rw [h u e]; omega

theorem left_less {s s' : State} {P : List Nat} (t : Nat) (ht : t ∈ P) (h : ∀ u, u ≠ t → s'.pcs u = s.pcs u) (hr : rank (s'.pcs t) < rank (s.pcs t)) :
    left s' P < left s P := by
  induction P with
  | nil => cases ht
  | cons u P ih =>
    rw [left, left]
    by_cases e : u = t
    · subst e; have := left_mono (P := P) u h hr; omega
    · have := ih (by simpa [Ne.symm e] using ht); rw [h u e]; omega

theorem work_one {s s' : State} {l : Label} (h : Work s l s') :
    ∃ t, (∀ u, u ≠ t → s'.pcs u = s.pcs u) ∧ s.pcs t ≠ .idle ∧ rank (s'.pcs t) < rank (s.pcs t) := by
  rcases step_one h.1 with ⟨e, -⟩ | ⟨t, -, hu, ⟨hi, hn⟩ | ⟨hi, hr⟩⟩
  · exact absurd e h.2.1
  · exact absurd (h.2.2 t hi) hn
  · exact ⟨t, hu, hi, hr⟩

/-- sequences of steps inside of calls -/
inductive Works : State → Nat → State → Prop
  | nil (s : State) : Works s 0 s
  | snoc (s s' s'' : State) (k : Nat) (l : Label) : Works s k s' → Work s' l s'' → Works s (k + 1) s''

/-- **C90** (2): between two ticks the calls of goroutines `P` come to a standstill after at most seven steps each, whatever the schedule. -/
theorem C90_settles (s s' : State) (P : List Nat) (hP : ∀ t, s.pcs t ≠ .idle → t ∈ P) (k : Nat) (h : Works s k s') :
    k ≤ 7 * P.length ∧ (Settled s' ∨ ∃ l s'', Work s' l s'') := by
  constructor
  · have key : k + left s' P ≤ left s P ∧ ∀ t, s'.pcs t ≠ .idle → t ∈ P := by
      induction h with
      | nil => exact ⟨by omega, hP⟩
      | snoc s1 s2 k l hw hl ih =>
        obtain ⟨h1, h2⟩ := ih
        obtain ⟨t, hu, hi, hr⟩ := work_one hl
        have := left_less t (h2 t hi) hu hr
        refine ⟨by omega, fun u hne => h2 u fun e => hne (hl.2.2 u e)⟩
    have := left_le s P
    omega
  · by_cases hs : Settled s'
    · exact .inl hs
    · refine .inr ?_
      unfold Settled at hs
      simp only [Classical.not_forall, Classical.not_not] at hs
      obtain ⟨u, hu, l, s'', hst, hne⟩ := hs
      refine ⟨l, s'', hst, ?_⟩
      rcases step_one hst with ⟨-, e⟩ | ⟨t, hl, ho, hc⟩
      · exact absurd (by rw [e]) hne
      · have e : u = t := by
          by_cases e : u = t
          · exact e
          · exact absurd (ho u e) hne
        subst e
        refine ⟨hl, fun w hw => ?_⟩
        rw [ho w (by rintro rfl; exact hu hw), hw]

/-! ### all writes get through -/

/-- the number of goroutines of `P` in a call -/
def busy (s : State) : List Nat → Nat
  | [] => 0
  | t :: P => (if s.pcs t = .idle then 0 else 1) + busy s P

theorem busy_le (s : State) (P : List Nat) : busy s P ≤ P.length := by
  induction P with
  | nil => exact Nat.le_refl _
  | cons t P ih => rw [busy, List.length_cons]; split <;> omega

theorem busy_same {s s' : State} {P : List Nat} (h : s'.pcs = s.pcs) : busy s' P = busy s P := by
  induction P with
  | nil => rfl
  | cons t P ih => rw [busy, busy, h, ih]

theorem busy_zero {s : State} {P : List Nat} (h : busy s P = 0) : ∀ t ∈ P, s.pcs t = .idle := by
  induction P with
  | nil => intro t ht; cases ht
  | cons u P ih =>
    rw [busy] at h
    intro t ht
    rcases List.mem_cons.mp ht with rfl | ht
    · by_cases e : s.pcs t = .idle
      · exact e
      · rw [if_neg e] at h; omega
    · exact ih (by omega) t ht

theorem busy_mono {s s' : State} {P : List Nat} (h : ∀ t, s.pcs t = .idle → s'.pcs t = .idle) : busy s' P ≤ busy s P := by
  induction P with
  | nil => exact Nat.le_refl _
  | cons t P ih =>
    rw [busy, busy]
    by_cases e : s.pcs t = .idle
    · rw [if_pos e, if_pos (h t e)]; omega
    · rw [if_neg e]; split <;> omega

theorem busy_less {s s' : State} {P : List Nat} (h : ∀ t, s.pcs t = .idle → s'.pcs t = .idle) (t : Nat) (ht : t ∈ P) (h1 : s.pcs t ≠ .idle) (h2 : s'.pcs t = .idle) :
    busy s' P < busy s P := by
  induction P with
  | nil => cases ht
  | cons u P ih =>
    rw [busy, busy]
    have hm := busy_mono (P := P) h
    by_cases e : u = t
    · subst e; rw [if_pos h2, if_neg h1]; omega
    · have := ih (by simpa [Ne.symm e] using ht)
      by_cases e : s.pcs u = .idle
      · rw [if_pos e, if_pos (h u e)]; omega
      · rw [if_neg e]; split <;> omega

/-- a call that has the lock and finds budget, or is beyond that -/
def Served (s : State) (t : Nat) : Prop :=
  (∃ n, s.pcs t = .spin n) ∧ s.used = 0 ∨ ∃ n, s.pcs t = .admit n ∨ s.pcs t = .unlock n ∨ s.pcs t = .addTotal n ∨ s.pcs t = .out n

theorem served_go {s : State} {t r : Nat} (hr : 0 < r) (hrate : s.rate = r) (h : Served s t) : s.pcs t ≠ .idle ∧ CanGo s t := by
  have hne : s.pcs t ≠ .idle := by
    rcases h with ⟨⟨n, hn⟩, -⟩ | ⟨n, hn | hn | hn | hn⟩ <;> rw [hn] <;> simp
  refine ⟨hne, ?_⟩
  by_cases hc : CanGo s t
  · exact hc
  · rcases not_canGo hne hc with ⟨-, ⟨m, hm⟩ | ⟨v, hv⟩⟩ | ⟨⟨m, hm⟩, hu⟩
    · rcases h with ⟨⟨n, hn⟩, -⟩ | ⟨n, hn | hn | hn | hn⟩ <;> rw [hm] at hn <;> cases hn
    · rcases h with ⟨⟨n, hn⟩, -⟩ | ⟨n, hn | hn | hn | hn⟩ <;> rw [hv] at hn <;> cases hn
    · rcases h with ⟨-, h0⟩ | ⟨n, hn | hn | hn | hn⟩
      · omega
      all_goals rw [hm] at hn; cases hn

/-- a step keeps a call served until it returns -/
theorem served_step {s s' : State} {l : Label} {t : Nat} (hs : Step s l s') (he : Excl s) (hd : ∀ u, isDirect (s.pcs u) = false) (h : Served s t) :
    Served s' t ∨ s'.pcs t = .idle := by
  have other : ∀ (u : Nat) (pc : Pc) (s1 : State), s1.pcs = s.pcs → u ≠ t → (s1.go u pc).pcs t = s.pcs t := by
    intro u pc s1 e hne
    rw [go_pcs, if_neg (Ne.symm hne), e]
  have ho : ∀ (u : Nat) (pc : Pc) (s1 : State), s1.pcs = s.pcs → s1.used = s.used → u ≠ t → Served (s1.go u pc) t := by
    intro u pc s1 e1 e2 hne
    have := other u pc s1 e1 hne
    rcases h with ⟨hn, h0⟩ | hn
    · exact .inl ⟨by rw [this]; exact hn, by show s1.used = 0; rw [e2, h0]⟩
    · exact .inr (by rw [this]; exact hn)
  have hne : ∀ u, (s.pcs u = .idle ∨ (∃ n, s.pcs u = .start n) ∨ (∃ n, s.pcs u = .wantLock n) ∨ (∃ v, s.pcs u = .setWant v) ∨ (∃ v, s.pcs u = .setHold v) ∨
      s.pcs u = .setUnlock) → u ≠ t := by
    rintro u hu rfl
    rcases h with ⟨⟨n, hn⟩, -⟩ | ⟨n, hn | hn | hn | hn⟩ <;> rw [hn] at hu <;> simp at hu
  have self : ∀ (pc : Pc) (s1 : State), (s1.go t pc).pcs t = pc := fun pc s1 => by rw [go_pcs, if_pos rfl]
  cases hs with
  | tick =>
    rcases h with ⟨hn, -⟩ | hn
    · exact .inl (.inl ⟨hn, rfl⟩)
    · exact .inl (.inr hn)
  | call u m hq => exact .inl (ho u _ _ rfl rfl (hne u (by simp [hq])))
  | setCall u m hq => exact .inl (ho u _ _ rfl rfl (hne u (by simp [hq])))
  | unlimited u m hq hr => exact .inl (ho u _ _ rfl rfl (hne u (by simp [hq])))
  | limited u m hq hr => exact .inl (ho u _ _ rfl rfl (hne u (by simp [hq])))
  | direct u m hq => have := hd u; rw [hq] at this; cases this
  | directUsed u m hq => have := hd u; rw [hq] at this; cases this
  | directTotal u m hq => have := hd u; rw [hq] at this; cases this
  | lock u m hq hl => exact .inl (ho u _ _ rfl rfl (hne u (by simp [hq])))
  | setLock u m hq hl => exact .inl (ho u _ _ rfl rfl (hne u (by simp [hq])))
  | setStore u m hq => exact .inl (ho u _ _ rfl rfl (hne u (by simp [hq])))
  | setUnlock u hq => exact .inl (ho u _ _ rfl rfl (hne u (by simp [hq])))
  | check u m hq hu =>
    by_cases e : u = t
    · subst e; exact .inl (.inr ⟨m, .inl (self _ _)⟩)
    · exact .inl (ho u _ _ rfl rfl e)
  | unlock u m hq =>
    by_cases e : u = t
    · subst e; exact .inl (.inr ⟨m, .inr (.inr (.inl (self _ _)))⟩)
    · exact .inl (ho u _ _ rfl rfl e)
  | addTotal u m hq =>
    by_cases e : u = t
    · subst e; exact .inl (.inr ⟨m, .inr (.inr (.inr (self _ _)))⟩)
    · exact .inl (ho u _ _ rfl rfl e)
  | out u m hq =>
    by_cases e : u = t
    · subst e; exact .inr (self _ _)
    · exact .inl (ho u _ _ rfl rfl e)
  | add u m hq =>
    by_cases e : u = t
    · subst e; exact .inl (.inr ⟨m, .inr (.inl (self _ _))⟩)
    · rcases h with ⟨⟨n, hn⟩, -⟩ | ⟨n, hn⟩
      · exact absurd (excl_unique he (t := u) (u := t) (by rw [hq]; rfl) (by rw [hn]; rfl)) e
      · refine .inl (.inr ⟨n, ?_⟩)
        have := other u (.unlock m) { s with used := wrap64 (s.used + m) } rfl e
        rw [this]; exact hn

theorem drain_run {s s' : State} {ls : List Label} (h : Drain s ls s') : Run s ls s' := by
  induction h with
  | nil => exact .nil _
  | work s' s'' ls l h hw ih => exact .snoc _ _ _ _ _ ih hw.1
  | tick s' s'' ls h hs ht ih => exact .snoc _ _ _ _ _ ih ht

theorem drain_idle {s s' : State} {ls : List Label} (h : Drain s ls s') : ∀ t, s.pcs t = .idle → s'.pcs t = .idle := by
  induction h with
  | nil => exact fun t e => e
  | work s' s'' ls l h hw ih => exact fun t e => hw.2.2 t (ih t e)
  | tick s' s'' ls h hs ht ih => cases ht; exact ih

theorem ticks_snoc (ls : List Label) (l : Label) : ticks (ls ++ [l]) = ticks ls + if l = .tick then 1 else 0 := by
  induction ls with
  | nil => cases l <;> simp [ticks]
  | cons x ls ih => cases x <;> simp only [List.cons_append, ticks, ih] <;> omega

/-- what is true during a drain: every tick but perhaps the last one has ended a call -/
theorem drain_inv {r : Nat} (hr : 0 < r) {s s' : State} {l0 ls : List Label} (P : List Nat) (hP : ∀ t, s.pcs t ≠ .idle → t ∈ P)
    (h0 : Run (init r) l0 s) (h : Drain s ls s') (hset : ∀ t v, Label.setRate t v ∉ l0 ++ ls) (hbig : ∀ t n, Label.admit t n ∈ l0 ++ ls → r + n < 2 ^ 63) :
    busy s' P + ticks ls ≤ P.length ∨ (∃ t, Served s' t ∧ busy s' P + ticks ls ≤ P.length + 1) ∨ ∀ t, s'.pcs t = .idle := by
  induction h with
  | nil => exact .inl (by simpa [ticks] using busy_le s P)
  | work s1 s2 ls l h hw ih =>
    have hs1 : ∀ t v, Label.setRate t v ∉ l0 ++ ls := fun t v hm => hset t v (by simp only [List.mem_append] at hm ⊢; rcases hm with hm | hm <;> simp [hm])
    have hb1 : ∀ t n, Label.admit t n ∈ l0 ++ ls → r + n < 2 ^ 63 := fun t n hm => hbig t n (by simp only [List.mem_append] at hm ⊢; rcases hm with hm | hm <;> simp [hm])
    have hl := limited_run (h0.trans (drain_run h)) hs1 hb1
    have hm := busy_mono (P := P) hw.2.2
    rw [ticks_snoc, if_neg hw.2.1]
    rcases ih hs1 hb1 with h1 | ⟨t, ht, h1⟩ | h1
    · exact .inl (by omega)
    · rcases served_step hw.1 hl.excl hl.nodirect ht with h2 | h2
      · exact .inr (.inl ⟨t, h2, by omega⟩)
      · have hne := (served_go hr hl.rate ht).1
        have := busy_less (P := P) hw.2.2 t (hP t fun e => hne (drain_idle h t e)) hne h2
        exact .inl (by omega)
    · exact .inr (.inr fun t => hw.2.2 t (h1 t))
  | tick s1 s2 ls h hst ht ih =>
    have hs1 : ∀ t v, Label.setRate t v ∉ l0 ++ ls := fun t v hm => hset t v (by simp only [List.mem_append] at hm ⊢; rcases hm with hm | hm <;> simp [hm])
    have hb1 : ∀ t n, Label.admit t n ∈ l0 ++ ls → r + n < 2 ^ 63 := fun t n hm => hbig t n (by simp only [List.mem_append] at hm ⊢; rcases hm with hm | hm <;> simp [hm])
    have hl := limited_run (h0.trans (drain_run h)) hs1 hb1
    cases ht
    rw [ticks_snoc, if_pos rfl]
    rcases ih hs1 hb1 with h1 | ⟨t, ht, h1⟩ | h1
    · by_cases hall : ∀ t, s1.pcs t = .idle
      · exact .inr (.inr hall)
      · obtain ⟨t, hi⟩ := Classical.not_forall.mp hall
        obtain ⟨u, n, hu, -⟩ := settled_spin hl.excl hst t hi
        exact .inr (.inl ⟨u, .inl ⟨⟨n, hu⟩, rfl⟩, by rw [show busy { s1 with used := 0 } P = busy s1 P from busy_same rfl]; omega⟩)
    · have := served_go hr hl.rate ht
      exact absurd this.2 (hst t this.1)
    · exact .inr (.inr h1)

/-- **C90** (3): with a limit `r > 0`, whatever the schedule: if nobody makes a new call and goroutines are faster than the ticker, all calls of the
goroutines `P` have returned after as many ticks as there are goroutines, -/
theorem C90_drained (r : Nat) (hr : 0 < r) (s s' : State) (l0 ls : List Label) (P : List Nat) (hP : ∀ t, s.pcs t ≠ .idle → t ∈ P)
    (h0 : Run (init r) l0 s) (h : Drain s ls s') (hset : ∀ t v, Label.setRate t v ∉ l0 ++ ls) (hbig : ∀ t n, Label.admit t n ∈ l0 ++ ls → r + n < 2 ^ 63)
    (hs : Settled s') (hk : P.length ≤ ticks ls) : ∀ t, s'.pcs t = .idle := by
  have hl := limited_run (h0.trans (drain_run h)) hset hbig
  rcases drain_inv hr P hP h0 h hset hbig with h1 | ⟨t, ht, h1⟩ | h1
  · intro t
    by_cases ht : s'.pcs t = .idle
    · exact ht
    · exact busy_zero (P := P) (by omega) t (hP t fun e => ht (drain_idle h t e))
  · have := served_go hr hl.rate ht
    exact absurd this.2 (hs t this.1)
  · exact h1

theorem todo_step {s s' : State} {l : Label} (hs : Step s l s') (t n : Nat) (h : todo (s.pcs t) = some n) : todo (s'.pcs t) = some n ∨ l = .written t n := by
  have key : ∀ (s1 : State) (u : Nat) (pc : Pc), s1.pcs = s.pcs → (u = t → todo pc = todo (s.pcs u)) → todo ((s1.go u pc).pcs t) = some n := by
    intro s1 u pc e hk
    rw [go_pcs]
    by_cases hu : t = u
    · rw [if_pos hu, hk hu.symm, ← hu, h]
    · rw [if_neg hu, e, h]
  cases hs with
  | tick => exact .inl h
  | call u m hq => exact .inl (key _ u _ rfl (by rintro rfl; rw [hq] at h; cases h))
  | setCall u m hq => exact .inl (key _ u _ rfl (by rintro rfl; rw [hq] at h; cases h))
  | unlimited u m hq hr => exact .inl (key _ u _ rfl (by rintro rfl; rw [hq]; rfl))
  | limited u m hq hr => exact .inl (key _ u _ rfl (by rintro rfl; rw [hq]; rfl))
  | direct u m hq =>
    by_cases e : u = t
    · subst e; rw [hq] at h; cases h; exact .inr rfl
    · exact .inl (key _ u _ rfl (fun e' => absurd e' e))
  | directUsed u m hq => exact .inl (key _ u _ rfl (by rintro rfl; rw [hq] at h; cases h))
  | directTotal u m hq => exact .inl (key _ u _ rfl (by rintro rfl; rw [hq] at h; cases h))
  | lock u m hq hl => exact .inl (key _ u _ rfl (by rintro rfl; rw [hq]; rfl))
  | setLock u m hq hl => exact .inl (key _ u _ rfl (by rintro rfl; rw [hq] at h; cases h))
  | setStore u m hq => exact .inl (key _ u _ rfl (by rintro rfl; rw [hq] at h; cases h))
  | setUnlock u hq => exact .inl (key _ u _ rfl (by rintro rfl; rw [hq] at h; cases h))
  | check u m hq hu => exact .inl (key _ u _ rfl (by rintro rfl; rw [hq]; rfl))
  | add u m hq => exact .inl (key _ u _ rfl (by rintro rfl; rw [hq]; rfl))
  | unlock u m hq => exact .inl (key _ u _ rfl (by rintro rfl; rw [hq]; rfl))
  | addTotal u m hq => exact .inl (key _ u _ rfl (by rintro rfl; rw [hq]; rfl))
  | out u m hq =>
    by_cases e : u = t
    · subst e; rw [hq] at h; cases h; exact .inr rfl
    · exact .inl (key _ u _ rfl (fun e' => absurd e' e))

/-- **C90** (4): a call that has returned has handed its bytes to the writer (whatever the schedule and the limits). -/
theorem C90_written (s s' : State) (ls : List Label) (h : Run s ls s') (t n : Nat) (ht : todo (s.pcs t) = some n) (hi : s'.pcs t = .idle) : Label.written t n ∈ ls := by
  have key : todo (s'.pcs t) = some n ∨ Label.written t n ∈ ls := by
    clear hi
    induction h with
    | nil => exact .inl ht
    | snoc s1 s2 ls l hr hs ih =>
      rcases ih with h1 | h1
      · rcases todo_step hs t n h1 with h2 | h2
        · exact .inl h2
        · exact .inr (by simp [h2])
      · exact .inr (by simp [h1])
  rcases key with h1 | h1
  · rw [hi] at h1; cases h1
  · exact h1

/-- the bytes admitted in a step are counted -/
theorem used_step {r : Nat} {s s' : State} {l : Label} {ls : List Label} (hl : Limited r s ls) (hl' : Limited r s' (ls ++ [l])) (ht : l ≠ .tick) :
    s'.used = s.used + ((admitted [l]).sum : Nat) := by
  rw [hl.used, hl'.used, sinceTick_snoc, if_neg ht, admitted_append, List.sum_append]
  omega

/-- **C90** (5): as long as a call has not returned, at least `r` bytes are admitted per tick. -/
theorem C90_throughput (r : Nat) (s s' : State) (l0 ls : List Label) (h0 : Run (init r) l0 s) (h : Drain s ls s')
    (hset : ∀ t v, Label.setRate t v ∉ l0 ++ ls) (hbig : ∀ t n, Label.admit t n ∈ l0 ++ ls → r + n < 2 ^ 63) (t : Nat) (ht : s'.pcs t ≠ .idle) :
    ticks ls * r ≤ (admitted (sinceTick l0)).sum + (admitted ls).sum := by
  suffices key : (ticks ls * r : Nat) + s'.used ≤ ((admitted (sinceTick l0)).sum + (admitted ls).sum : Nat) by
    have hl := limited_run (h0.trans (drain_run h)) hset hbig
    have := hl.used
    omega
  induction h with
  | nil =>
    have hl := limited_run h0 (by simpa using hset) (by simpa using hbig)
    rw [hl.used]; simp [ticks, admitted]
  | work s1 s2 ls l h hw ih =>
    have hs1 : ∀ t v, Label.setRate t v ∉ l0 ++ ls := fun t v hm => hset t v (by simp only [List.mem_append] at hm ⊢; rcases hm with hm | hm <;> simp [hm])
    have hb1 : ∀ t n, Label.admit t n ∈ l0 ++ ls → r + n < 2 ^ 63 := fun t n hm => hbig t n (by simp only [List.mem_append] at hm ⊢; rcases hm with hm | hm <;> simp [hm])
    have hl := limited_run (h0.trans (drain_run h)) hs1 hb1
    have hl' := limited_run (h0.trans (drain_run (.work _ _ _ _ _ h hw))) hset hbig
    rw [← List.append_assoc] at hl'
    have hu := used_step hl hl' hw.2.1
    have := ih hs1 hb1 (fun e => ht (hw.2.2 t e))
    rw [ticks_snoc, if_neg hw.2.1, admitted_append, List.sum_append, hu]
    simp only [Nat.add_zero]
    omega
  | tick s1 s2 ls h hst hts ih =>
    have hs1 : ∀ t v, Label.setRate t v ∉ l0 ++ ls := fun t v hm => hset t v (by simp only [List.mem_append] at hm ⊢; rcases hm with hm | hm <;> simp [hm])
    have hb1 : ∀ t n, Label.admit t n ∈ l0 ++ ls → r + n < 2 ^ 63 := fun t n hm => hbig t n (by simp only [List.mem_append] at hm ⊢; rcases hm with hm | hm <;> simp [hm])
    have hl := limited_run (h0.trans (drain_run h)) hs1 hb1
    cases hts
    obtain ⟨u, n, -, hu⟩ := settled_spin hl.excl hst t ht
    have := ih hs1 hb1 ht
    rw [hl.rate] at hu
    rw [ticks_snoc, if_pos rfl, admitted_append, List.sum_append, Nat.succ_mul]
    simp only [admitted, List.sum_nil, Nat.add_zero]
    omega

/-! ### two writes of three bytes, with a limit of two bytes -/

/-- a waiting goroutine cannot go on -/
theorem settled_of {s : State} (h : ∀ t, s.pcs t = .idle ∨ (∃ n, s.pcs t = .spin n) ∧ s.rate ≤ s.used ∨ (∃ n, s.pcs t = .wantLock n) ∧ s.lock ≠ none) : Settled s := by
  rintro t hi ⟨l, s', hs, hne⟩
  rcases step_one hs with ⟨-, e⟩ | ⟨u, -, ho, -⟩
  · exact hne (by rw [e])
  · have e : u = t := by
      by_cases e : u = t
      · exact e
      · exact absurd (ho t (Ne.symm e)) hne
    subst e
    have h1 := h u
    have other : ∀ (w : Nat) (pc : Pc) (s1 : State), s1.pcs = s.pcs → (s1.go w pc).pcs u ≠ s.pcs u → w = u := by
      intro w pc s1 e hn
      by_cases hw : w = u
      · exact hw
      · exact absurd (by rw [go_pcs, if_neg (Ne.symm hw), e]) hn
    cases hs with
    | tick => exact hne rfl
    | call w m hq => have := other w _ _ rfl hne; subst this; exact hi hq
    | setCall w m hq => have := other w _ _ rfl hne; subst this; exact hi hq
    | unlimited w m hq hr => have := other w _ _ rfl hne; subst this; simp [hq] at h1
    | limited w m hq hr => have := other w _ _ rfl hne; subst this; simp [hq] at h1
    | direct w m hq => have := other w _ _ rfl hne; subst this; simp [hq] at h1
    | directUsed w m hq => have := other w _ _ rfl hne; subst this; simp [hq] at h1
    | directTotal w m hq => have := other w _ _ rfl hne; subst this; simp [hq] at h1
    | lock w m hq hl => have := other w _ _ rfl hne; subst this; simp [hq, hl] at h1
    | setLock w m hq hl => have := other w _ _ rfl hne; subst this; simp [hq] at h1
    | setStore w m hq => have := other w _ _ rfl hne; subst this; simp [hq] at h1
    | setUnlock w hq => have := other w _ _ rfl hne; subst this; simp [hq] at h1
    | check w m hq hu => have := other w _ _ rfl hne; subst this; simp [hq] at h1; omega
    | add w m hq => have := other w _ _ rfl hne; subst this; simp [hq] at h1
    | unlock w m hq => have := other w _ _ rfl hne; subst this; simp [hq] at h1
    | addTotal w m hq => have := other w _ _ rfl hne; subst this; simp [hq] at h1
    | out w m hq => have := other w _ _ rfl hne; subst this; simp [hq] at h1

/-- goroutine 0 has written three bytes, goroutine 1 waits with three bytes; the limit is two bytes -/
def exWaiting : State := { rate := 2, used := 3, total := 3, lock := some 1, pcs := fun t => if t = 1 then .spin 3 else .idle }

theorem Run.cast {s s' s'' : State} {ls : List Label} (h : Run s ls s') (e : s'' = s') : Run s ls s'' := e ▸ h

theorem exWaiting_reached : Run (init (2 : Nat))
    [.tau, .tau, .tau, .tau, .admit 0 3, .tau, .counted 0 3, .written 0 3, .tau, .tau, .tau] exWaiting := by
  refine Run.cast (s' := _) (.step (.call _ 0 3 rfl) <| .step (.limited _ 0 3 rfl (by decide)) <| .step (.lock _ 0 3 rfl rfl) <| .step (.check _ 0 3 rfl (by decide)) <|
    .step (.add _ 0 3 rfl) <| .step (.unlock _ 0 3 rfl) <| .step (.addTotal _ 0 3 rfl) <| .step (.out _ 0 3 rfl) <|
    .step (.call _ 1 3 rfl) <| .step (.limited _ 1 3 rfl (by decide)) <| .step (.lock _ 1 3 rfl rfl) <| .nil _) ?_
  · simp only [exWaiting, State.go, init, State.mk.injEq]
    refine ⟨by decide, by decide, by decide, trivial, ?_⟩
    funext t
    by_cases h1 : t = 1 <;> by_cases h0 : t = 0 <;> simp [h1, h0]

theorem exWaiting_settled : Settled exWaiting := settled_of fun t => by
  by_cases h : t = 1
  · exact .inr (.inl ⟨⟨3, by simp [exWaiting, h]⟩, by decide⟩)
  · exact .inl (by simp [exWaiting, h])

/-- C90_used_fully: somebody is in a call, nobody can go on, three bytes have been admitted -/
example : exWaiting.pcs 1 ≠ .idle ∧ ¬ (∃ u, exWaiting.pcs u ≠ .idle ∧ CanGo exWaiting u) ∧
    (admitted (sinceTick [.tau, .tau, .tau, .tau, .admit 0 3, .tau, .counted 0 3, .written 0 3, .tau, .tau, .tau])).sum = 3 :=
  ⟨by decide, fun ⟨u, h1, h2⟩ => exWaiting_settled u h1 h2, by decide⟩

/-- C90_drained, C90_written, C90_throughput: after a tick the write goes on, and all calls have returned -/
example : ∃ ls s', Drain exWaiting ls s' ∧ Settled s' ∧ [1].length ≤ ticks ls ∧ Label.written 1 3 ∈ ls ∧ ∀ t, s'.pcs t = .idle := by
  have idle : ∀ (s : State) (u : Nat) (pc : Pc), s.pcs u ≠ .idle → ∀ t, s.pcs t = .idle → (s.go u pc).pcs t = .idle := by
    intro s u pc hu t ht
    rw [go_pcs, if_neg (by rintro rfl; exact hu ht), ht]
  have h : Drain exWaiting _ _ := .work _ _ _ _ _ (.work _ _ _ _ _ (.work _ _ _ _ _ (.work _ _ _ _ _ (.work _ _ _ _ _
    (.tick _ _ _ _ (.nil _) exWaiting_settled (.tick _))
    ⟨.check _ 1 3 rfl (by decide), by simp, idle _ 1 _ (by decide)⟩)
    ⟨.add _ 1 3 rfl, by simp, idle _ 1 _ (by decide)⟩)
    ⟨.unlock _ 1 3 rfl, by simp, idle _ 1 _ (by decide)⟩)
    ⟨.addTotal _ 1 3 rfl, by simp, idle _ 1 _ (by decide)⟩)
    ⟨.out _ 1 3 rfl, by simp, idle _ 1 _ (by decide)⟩
  refine ⟨_, _, h, ?_, by decide, by decide, ?_⟩
  · refine settled_of fun t => .inl ?_
    by_cases ht : t = 1 <;> simp [State.go, exWaiting, ht]
  · intro t
    by_cases ht : t = 1 <;> simp [State.go, exWaiting, ht]

/-- C90_settles: three steps of one goroutine -/
example : ∃ s, Works { exWaiting with used := 0 } 3 s ∧ ∀ t, ({ exWaiting with used := 0 } : State).pcs t ≠ .idle → t ∈ [1] := by
  have idle : ∀ (s : State) (u : Nat) (pc : Pc), s.pcs u ≠ .idle → ∀ t, s.pcs t = .idle → (s.go u pc).pcs t = .idle := by
    intro s u pc hu t ht
    rw [go_pcs, if_neg (by rintro rfl; exact hu ht), ht]
  refine ⟨_, .snoc _ _ _ _ _ (.snoc _ _ _ _ _ (.snoc _ _ _ _ _ (.nil _) ⟨.check _ 1 3 rfl (by decide), by simp, idle _ 1 _ (by decide)⟩)
    ⟨.add _ 1 3 rfl, by simp, idle _ 1 _ (by decide)⟩) ⟨.unlock _ 1 3 rfl, by simp, idle _ 1 _ (by decide)⟩, fun t ht => ?_⟩
  by_cases h : t = 1
  · simp [h]
  · exact absurd (by simp [exWaiting, h]) ht

end Verif.RateLimit
