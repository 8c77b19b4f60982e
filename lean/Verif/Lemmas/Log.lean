import Verif.Spec.Log
import Verif.Props.Show
/-
Lemmas about the log: its lines, and the log of one connection.
-/
set_option autoImplicit false

namespace Verif.Log
open Verif.P2P Verif.Peer Verif.Handshake Verif.Bencode Verif.ShowSpec Verif.LogSpec Verif.Lts Verif.Show

/-! ### dates -/

theorem digit (n : Nat) : 48 ≤ UInt8.ofNat (48 + n % 10) ∧ UInt8.ofNat (48 + n % 10) ≤ 57 := by
  have : ∀ k, k < 10 → 48 ≤ UInt8.ofNat (48 + k) ∧ UInt8.ofNat (48 + k) ≤ 57 := by decide
  exact this _ (Nat.mod_lt _ (by decide))

theorem digit' (n : Nat) : 48 ≤ 48 + UInt8.ofNat (n % 10) ∧ 48 + UInt8.ofNat (n % 10) ≤ 57 := by
  have h := digit n
  rw [UInt8.ofNat_add] at h
  exact h

theorem header_dated (t : Time) : Dated t.header := by
  have e : t.header = [UInt8.ofNat (48 + t.year / 10 / 10 / 10 % 10), UInt8.ofNat (48 + t.year / 10 / 10 % 10), UInt8.ofNat (48 + t.year / 10 % 10), UInt8.ofNat (48 + t.year % 10), 47,
      UInt8.ofNat (48 + t.month / 10 % 10), UInt8.ofNat (48 + t.month % 10), 47, UInt8.ofNat (48 + t.day / 10 % 10), UInt8.ofNat (48 + t.day % 10), 32,
      UInt8.ofNat (48 + t.hour / 10 % 10), UInt8.ofNat (48 + t.hour % 10), 58, UInt8.ofNat (48 + t.min / 10 % 10), UInt8.ofNat (48 + t.min % 10), 58,
      UInt8.ofNat (48 + t.sec / 10 % 10), UInt8.ofNat (48 + t.sec % 10), 32] := rfl
  rw [e]
  refine ⟨rfl, fun i c h => ?_⟩
  rcases i with _|_|_|_|_|_|_|_|_|_|_|_|_|_|_|_|_|_|_|_|i <;> simp at h <;> subst h <;> simp <;> first | exact digit _ | exact digit' _ | skip

theorem Dated.oneLine {t : Bytes} (h : Dated t) : OneLine t := by
  intro hm
  obtain ⟨i, hi, he⟩ := List.mem_iff_getElem.mp hm
  have := h.2 i 10 (by rw [List.getElem?_eq_getElem hi, he])
  revert this
  repeat' split
  all_goals decide

/-! ### lines -/

theorem chomp_lf (a : Bytes) : chomp (a ++ [10]) = a := by
  unfold chomp
  rw [if_pos (by simp), List.dropLast_concat]

theorem chomp_oneLine {s : Bytes} (h : OneLine s) : chomp s = s := by
  unfold chomp
  split
  · rename_i hl
    exact absurd (List.mem_of_getLast? hl) h
  · rfl

theorem bytes_eq (l : Line) : l.bytes = l.time.header ++ chomp l.entry.text ++ [10] := by
  unfold Line.bytes chomp
  split
  · rename_i h
    obtain ⟨r, hr⟩ := List.getLast?_eq_some_iff.mp h
    rw [hr, List.dropLast_concat]
    simp
  · rfl

theorem lines_flatten (ls : List Bytes) (rest : Bytes) : (∀ l ∈ ls, OneLine l) → lines ((ls.map (· ++ [10])).flatten ++ rest) = ls ++ lines rest := by
  induction ls with
  | nil => intro _; rfl
  | cons a ls ih =>
    intro h
    rw [List.map_cons, List.flatten_cons, List.append_assoc, List.append_assoc, List.singleton_append, lines_cons _ _ (h a (List.mem_cons_self ..)),
      ih fun l hl => h l (List.mem_cons_of_mem _ hl), List.cons_append]

theorem lines_lf (a b : Bytes) : lines (a ++ 10 :: b) = lines a ++ lines b := by
  generalize hn : a.length = n
  induction n using Nat.strongRecOn generalizing a with
  | _ n ih =>
    by_cases h : OneLine a
    · rw [lines_cons _ _ h, lines_one _ h, List.singleton_append]
    · obtain ⟨x, y, e⟩ := List.append_of_mem (Classical.not_not.mp h)
      obtain ⟨x, y, e, hx⟩ : ∃ x y, a = x ++ 10 :: y ∧ OneLine x := by
        have := List.eq_append_cons_of_mem (Classical.not_not.mp h)
        obtain ⟨x, y, e, hx⟩ := this
        exact ⟨x, y, e, hx⟩
      subst e
      rw [List.append_assoc, List.cons_append, lines_cons _ _ hx, lines_cons _ _ hx, ih y.length (by simp at hn; omega) y rfl, List.cons_append]

theorem stderr_snoc (σ : State) (l : Line) : ({ σ with log := σ.log ++ [l] } : State).stderr = σ.stderr ++ l.bytes := by
  simp [State.stderr]

/-! ### the texts in an entry -/

/-- the texts of peers -/
def strs : Entry → List Bytes
  | .killing str _ | .recvStart str | .recvEnd str | .reqStart str | .reqEnd str | .pingEnd str => [str]
  | _ => []

/-- the texts of addresses -/
def addrs : Entry → List Bytes
  | .noBootstrap a _ | .newClient a | .goodHandshake a | .sentHandshake a | .sentBitfield a | .done a | .decoded _ _ _ a | .pingStart a | .pingError a | .pingSent a
  | .readStart a | .readEnd a => [a]
  | _ => []

/-- what the program got from its user and from the torrent file -/
def given : Entry → List Bytes
  | .reading a | .asking a => [a]
  | _ => []

theorem natDec_oneLine (n : Nat) : OneLine (natDec n) := (natDec_plain n).1

theorem intDec_oneLine (n : Int) : OneLine (intDec n) := by
  unfold intDec
  split
  · exact fun h => by
      rcases List.mem_cons.mp h with h | h
      · exact absurd h (by decide)
      · exact natDec_oneLine _ h
  · exact natDec_oneLine _

theorem chomp_split {a b : Bytes} (ha : OneLine a) (hb : OneLine b) : chomp (a ++ (b ++ [10])) = a ++ b ∧ OneLine (a ++ b) := by
  rw [← List.append_assoc, chomp_lf]
  exact ⟨rfl, ha.append hb⟩

theorem text_oneLine (e : Entry) (h1 : ∀ s ∈ strs e, OneLine s) (h2 : ∀ s ∈ addrs e, OneLine s) (h3 : ∀ s ∈ given e, OneLine s)
    (h4 : ∀ s ∈ reports e, OneLine s) : OneLine (chomp e.text) := by
  have key : ∀ a b : Bytes, OneLine a → (b = [] ∨ ∃ b', b = b' ++ [10] ∧ OneLine b') → OneLine (chomp (a ++ b)) := by
    intro a b ha hb
    rcases hb with rfl | ⟨b', rfl, hb⟩
    · rw [List.append_nil, chomp_oneLine ha]; exact ha
    · obtain ⟨q1, q2⟩ := chomp_split ha hb
      rw [q1]; exact q2
  have key' : ∀ a : Bytes, OneLine a → OneLine (chomp a) := fun a ha => by rw [chomp_oneLine ha]; exact ha
  have n := natDec_oneLine
  have z := intDec_oneLine
  have lf : ∀ b' : Bytes, OneLine b' → (b' ++ [10] = [] ∨ ∃ b'', b' ++ [10] = b'' ++ [10] ∧ OneLine b'') := fun b' h => .inr ⟨b', rfl, h⟩
  cases e <;> simp only [strs, addrs, given, reports, List.mem_singleton, forall_eq, List.not_mem_nil, false_implies, implies_true] at h1 h2 h3 h4 <;> unfold Entry.text
  case reading => exact key _ _ (.append (by decide) h3) (lf (ascii "]") (by decide))
  case opening => exact key' _ (by decide)
  case has => exact key' _ ((((((OneLine.append (by decide) (z _)).append (by decide)).append (z _)).append (by decide)).append h4).append (by decide))
  case asking => exact key _ _ (.append (by decide) h3) (lf (ascii "]") (by decide))
  case noBootstrap => exact key' _ (((OneLine.append (by decide) h2).append (by decide)).append h4)
  case listening => exact key _ _ (.append (by decide) (n _)) (lf [] (by decide))
  case newClient => exact key' _ (.append (by decide) h2)
  case refused => exact key _ _ h4 (lf [] (by decide))
  case goodHandshake => exact key' _ (.append (by decide) h2)
  case sentHandshake => exact key _ _ (.append (by decide) h2) (lf (ascii " handshake") (by decide))
  case sentBitfield => exact key _ _ (.append (by decide) h2) (lf (ascii " bitfield") (by decide))
  case unchokeError => exact key _ _ (.append (by decide) h4) (lf [] (by decide))
  case killing => exact key' _ (((OneLine.append (by decide) h1).append (by decide)).append h4)
  case done => exact key' _ ((OneLine.append (by decide) h2).append (by decide))
  case recvStart => exact key' _ ((OneLine.append (by decide) h1).append (by decide))
  case recvEnd => exact key' _ ((OneLine.append (by decide) h1).append (by decide))
  case decoded =>
    exact key _ _ ((((((((OneLine.append (by decide) (n _)).append (by decide)).append (n _)).append (by decide)).append h4).append (by decide)).append h2)) (lf [] (by decide))
  case registered => exact key' _ (by decide)
  case reqStart => exact key' _ ((OneLine.append (by decide) h1).append (by decide))
  case reqEnd => exact key' _ ((OneLine.append (by decide) h1).append (by decide))
  case pingStart => exact key' _ (.append (by decide) h2)
  case pingError => exact key' _ (.append (by decide) h2)
  case pingSent => exact key' _ (.append (by decide) h2)
  case pingEnd => exact key' _ ((OneLine.append (by decide) h1).append (by decide))
  case readStart => exact key' _ (.append (by decide) h2)
  case readEnd => exact key' _ (.append (by decide) h2)

/-! ### one connection alone -/

/-- an execution of one connection and what is logged in it -/
inductive CRun (E : Env) (c0 : Conn) : List Entry → Conn → Prop
  | nil : CRun E c0 [] c0
  | snoc (es es' : List Entry) (c c' : Conn) (h : CRun E c0 es c) (hs : CStep E c es' c') : CRun E c0 (es ++ es') c'

/-- how a connection begins, with what is logged about that -/
inductive Birth (E : Env) : List Entry → Conn → Prop
  | outgoing (id : Bytes) (ip : IP) (port : UInt16) : Birth E [] (outgoing E (MakePeer E.v6 id ip port))
  | accepted (ip : IP) (port : UInt16) : Birth E [.newClient (E.remote ip port)] (accepted E ip port)

theorem own_snoc (σ : State) (cs : List Conn) (o : Bool) (ls : List Line) (i : Nat) :
    own ⟨cs, o, σ.log ++ ls⟩ i = own σ i ++ (ls.filter fun l => l.conn == some i).map Line.entry := by
  simp [own]

theorem filter_own (t : Time) (i j : Nat) (es : List Entry) :
    (((es.map fun e => (⟨t, some i, e⟩ : Line)).filter fun l => l.conn == some j).map Line.entry) = if i = j then es else [] := by
  by_cases h : i = j
  · subst h
    rw [if_pos rfl, List.filter_eq_self.mpr (by simp), List.map_map]
    simp [Function.comp_def]
  · rw [if_neg h, List.filter_eq_nil_iff.mpr (by simp; exact fun _ _ => h), List.map_nil]

/-- what belongs to a connection is a run of that connection alone; what belongs to none was said at the start -/
theorem project {E : Env} {input announce : Bytes} {start : List Entry} {σ₀ σ : State} (h0 : Initial start σ₀)
    (hst : ∀ e ∈ start, strs e = [] ∧ addrs e = [] ∧ (∀ s ∈ given e, s = input ∨ s = announce)) (hr : Reach (Step E) σ₀ σ) :
    (∀ l ∈ σ.log, match l.conn with
      | none => strs l.entry = [] ∧ addrs l.entry = [] ∧ (∀ s ∈ given l.entry, s = input ∨ s = announce)
      | some i => i < σ.conns.length ∧ l.entry ∈ own σ i) ∧
    ∀ i c, σ.conns[i]? = some c → ∃ first c0 es, Birth E first c0 ∧ CRun E c0 es c ∧ own σ i = first ++ es := by
  have hown : ∀ (σ : State) (l : Line) (i : Nat), l ∈ σ.log → l.conn = some i → l.entry ∈ own σ i := by
    intro σ l i hl hc
    exact List.mem_map.mpr ⟨l, List.mem_filter.mpr ⟨hl, by simp [hc]⟩, rfl⟩
  have hsplit : (∀ l ∈ σ.log, match l.conn with
      | none => strs l.entry = [] ∧ addrs l.entry = [] ∧ (∀ s ∈ given l.entry, s = input ∨ s = announce)
      | some i => i < σ.conns.length) ∧
    ∀ i c, σ.conns[i]? = some c → ∃ first c0 es, Birth E first c0 ∧ CRun E c0 es c ∧ own σ i = first ++ es := by
    induction hr with
    | refl =>
      obtain ⟨hc, -, hl, hn⟩ := h0
      constructor
      · intro l hm
        rw [hn l hm]
        exact hst _ (hl ▸ List.mem_map_of_mem hm)
      · rw [hc]; simp
    | tail σ' σ'' _ hs ih =>
      obtain ⟨ih1, ih2⟩ := ih
      have hnone : own σ' σ'.conns.length = [] := by
        unfold own
        rw [List.map_eq_nil_iff, List.filter_eq_nil_iff]
        intro l hl
        have := ih1 l hl
        cases hc : l.conn with
        | none => simp
        | some j =>
          rw [hc] at this
          simp only [beq_iff_eq, Option.some.injEq]
          intro e
          rw [e] at this
          exact Nat.lt_irrefl _ this
      have ih1' : ∀ (n : Nat), σ'.conns.length ≤ n → ∀ l ∈ σ'.log, match l.conn with
          | none => strs l.entry = [] ∧ addrs l.entry = [] ∧ (∀ s ∈ given l.entry, s = input ∨ s = announce)
          | some i => i < n := by
        intro n hn l hl
        have := ih1 l hl
        cases hc : l.conn with
        | none => rw [hc] at this; exact this
        | some j => rw [hc] at this; exact Nat.lt_of_lt_of_le this hn
      cases hs with
      | listen t port h =>
        constructor
        · intro l hm
          rcases List.mem_append.mp hm with hm | hm
          · exact ih1 l hm
          · rw [List.mem_singleton.mp hm]
            exact ⟨rfl, rfl, fun s hs => absurd hs (by simp [given])⟩
        · intro i c hi
          obtain ⟨first, c0, es, hb, hrun, ho⟩ := ih2 i c hi
          refine ⟨first, c0, es, hb, hrun, ?_⟩
          rw [own_snoc, ho]
          simp
      | call id ip port =>
        constructor
        · exact ih1' _ (by simp)
        · intro i c hi
          rw [List.getElem?_append] at hi
          split at hi
          · obtain ⟨first, c0, es, hb, hrun, ho⟩ := ih2 i c hi
            exact ⟨first, c0, es, hb, hrun, ho⟩
          · rename_i hlt
            have hi0 : i = σ'.conns.length := by
              by_cases e : i - σ'.conns.length = 0
              · omega
              · rw [List.getElem?_eq_none (by simp; omega)] at hi; exact absurd hi (by simp)
            subst hi0
            rw [Nat.sub_self] at hi
            obtain rfl := Option.some.inj hi
            exact ⟨[], _, [], .outgoing id ip port, .nil, hnone⟩
      | accept t ip port h =>
        constructor
        · intro l hm
          rcases List.mem_append.mp hm with hm | hm
          · exact ih1' _ (by simp) l hm
          · rw [List.mem_singleton.mp hm]
            simp
        · intro i c hi
          rw [List.getElem?_append] at hi
          rw [own_snoc]
          split at hi
          · rename_i hlt
            obtain ⟨first, c0, es, hb, hrun, ho⟩ := ih2 i c hi
            refine ⟨first, c0, es, hb, hrun, ?_⟩
            rw [ho, List.filter_eq_nil_iff.mpr (by simp; omega)]
            simp
          · rename_i hlt
            have hi0 : i = σ'.conns.length := by
              by_cases e : i - σ'.conns.length = 0
              · omega
              · rw [List.getElem?_eq_none (by simp; omega)] at hi; exact absurd hi (by simp)
            subst hi0
            rw [Nat.sub_self] at hi
            obtain rfl := Option.some.inj hi
            refine ⟨_, _, [], .accepted ip port, .nil, ?_⟩
            rw [hnone]
            simp
      | work j t c c' es hj h =>
        have hjl : j < σ'.conns.length := by
          apply Nat.lt_of_not_le
          intro hle
          rw [List.getElem?_eq_none hle] at hj
          exact absurd hj (by simp)
        constructor
        · intro l hm
          rcases List.mem_append.mp hm with hm | hm
          · exact ih1' _ (by simp) l hm
          · obtain ⟨e, -, rfl⟩ := List.mem_map.mp hm
            simpa using hjl
        · intro i d hi
          rw [own_snoc, filter_own]
          rw [List.getElem?_set] at hi
          by_cases e : j = i
          · subst e
            rw [if_pos rfl, if_pos hjl] at hi
            obtain rfl := Option.some.inj hi
            obtain ⟨first, c0, es0, hb, hrun, ho⟩ := ih2 j c hj
            refine ⟨first, c0, es0 ++ es, hb, .snoc _ _ _ _ hrun h, ?_⟩
            rw [if_pos rfl, ho, List.append_assoc]
          · rw [if_neg e] at hi
            obtain ⟨first, c0, es0, hb, hrun, ho⟩ := ih2 i d hi
            refine ⟨first, c0, es0, hb, hrun, ?_⟩
            rw [if_neg e, ho, List.append_nil]
  refine ⟨fun l hl => ?_, hsplit.2⟩
  have := hsplit.1 l hl
  cases hc : l.conn with
  | none => rw [hc] at this; exact this
  | some i => rw [hc] at this; exact ⟨this, hown σ l i hl hc⟩

/-- before `Loop` sends its first message no other goroutine runs -/
structure Early (c : Conn) : Prop where
  early : c.stage ≠ .looping → c.main = .begin
  quiet : c.main = .begin → c.ping = .notStarted ∧ c.recv = .notStarted ∧ c.req = .notStarted

/-- who the texts in the entries of a connection belong to -/
structure Texts (E : Env) (es : List Entry) (c : Conn) (id : Bytes) (ip : IP) (port : UInt16) : Prop where
  info : c.info = MakePeer E.v6 id ip port
  remote : c.remote = E.remote ip port
  shaking : ∀ ip' port', c.stage = .shaking ip' port' → ip' = ip ∧ port' = port
  good : ∀ id' ip' port', c.stage = .good id' ip' port' → ip' = ip ∧ port' = port
  greeted : ∀ id' ip' port', c.stage = .greeted id' ip' port' → ip' = ip ∧ port' = port
  early : Early c
  strs : ∀ e ∈ es, ∀ s ∈ strs e, s = c.info.str ∧ c.main ≠ .begin
  addrs : ∀ e ∈ es, ∀ s ∈ addrs e, s = c.info.addr ∨ s = c.remote
  given : ∀ e ∈ es, given e = []

theorem early_step {E : Env} {es' : List Entry} {c c' : Conn} (h : Early c) (hs : CStep E c es' c') : Early c' := by
  obtain ⟨h6, h7⟩ := h
  have stg : ∀ {P : Prop}, c.main ≠ .begin → c.stage ≠ .looping → P := fun h1 h2 => absurd (h6 h2) h1
  have main : ∀ {m : Main}, m ≠ .begin → c.main = m → c.main ≠ .begin := fun h1 h2 => h2 ▸ h1
  have ping : c.ping ≠ .notStarted → c.main ≠ .begin := fun h1 h2 => h1 (h7 h2).1
  have recv : c.recv ≠ .notStarted → c.main ≠ .begin := fun h1 h2 => h1 (h7 h2).2.1
  have req : c.req ≠ .notStarted → c.main ≠ .begin := fun h1 h2 => h1 (h7 h2).2.2
  have run : ∀ d : Conn, d.stage = c.stage → d.main = c.main → c.main ≠ .begin → Early d := fun d e1 e2 h =>
    ⟨fun h2 => absurd (h6 (e1 ▸ h2)) h, fun h2 => absurd (e2 ▸ h2) h⟩
  have run' : ∀ d : Conn, d.stage = c.stage → d.main ≠ .begin → c.main ≠ .begin → Early d := fun d e1 e2 h =>
    ⟨fun h2 => absurd (h6 (e1 ▸ h2)) h, fun h2 => absurd h2 e2⟩
  cases hs with
  | dialFails e h => exact ⟨fun _ => h6 (by rw [h]; simp), h7⟩
  | dialled h => exact ⟨fun h => absurd rfl h, h7⟩
  | shakeFails ip port e h => exact ⟨fun _ => h6 (by rw [h]; simp), h7⟩
  | badHandshake ip port d h hv => exact ⟨fun _ => h6 (by rw [h]; simp), h7⟩
  | goodHandshake ip port d id h hv hid => exact ⟨fun _ => h6 (by rw [h]; simp), h7⟩
  | greetFails ip port id e h => exact ⟨fun _ => h6 (by rw [h]; simp), h7⟩
  | greet ip port id h => exact ⟨fun _ => h6 (by rw [h]; simp), h7⟩
  | bitfieldFails ip port id e h => exact ⟨fun _ => h6 (by rw [h]; simp), h7⟩
  | bitfield ip port id h => exact ⟨fun h => absurd rfl h, h7⟩
  | unchoke h hm => exact ⟨fun h' => absurd h h', fun h' => absurd h' (by simp)⟩
  | unchokeFails e h hm => exact ⟨fun h' => absurd h h', fun h' => absurd h' (by simp)⟩
  | pingStart hm h => exact run _ rfl rfl hm
  | pingWrite h => exact run _ rfl rfl (ping (by simp [h]))
  | pingSays h => exact run _ rfl rfl (ping (by simp [h]))
  | pingFail e h => exact run _ rfl rfl (ping (by simp [h]))
  | pingReport e h hm => exact run' _ rfl (by simp) (main (by simp) hm)
  | pingSaysError h => exact run _ rfl rfl (ping (by simp [h]))
  | pingSaysLost h => exact run _ rfl rfl (ping (by simp [h]))
  | pingEnd h => exact run _ rfl rfl (ping (by simp [h]))
  | recvStart hm h => exact run _ rfl rfl hm
  | receive buf pc fuel dar h hd => exact run _ rfl rfl (recv (by simp [h]))
  | registers n b ms h => exact run _ rfl rfl (recv (by simp [h]))
  | rejects n b ms h => exact run _ rfl rfl (recv (by simp [h]))
  | handles m ms h hm => exact run _ rfl rfl (recv (by simp [h]))
  | requestFails i b l ms e h => exact run _ rfl rfl (recv (by simp [h]))
  | handled h => exact run _ rfl rfl (recv (by simp [h]))
  | recvFail e h => exact run _ rfl rfl (recv (by simp [h]))
  | recvQuiet h => exact run _ rfl rfl (recv (by simp [h]))
  | recvReport e h hm => exact run' _ rfl (by simp) (main (by simp) hm)
  | finish h => exact run _ rfl rfl (recv (by simp [h]))
  | finishBlocks h => exact run _ rfl rfl (recv (by simp [h]))
  | recvEnd h => exact run _ rfl rfl (recv (by simp [h]))
  | reqStart hm h => exact run _ rfl rfl hm
  | reqCreate h hc => exact run _ rfl rfl (req (by simp [h]))
  | reqEnd h hc => exact run _ rfl rfl (req (by simp [h]))
  | readStart hr h => exact run _ rfl rfl (recv hr)
  | readEnd h => exact ⟨h6, h7⟩
  | says e hm => exact run' _ rfl (by simp) (main (by simp) hm)
  | killPing hm h => exact run' _ rfl (by simp) (main (by simp) hm)
  | killRecv hm h => exact run' _ rfl (by simp) (main (by simp) hm)
  | waited hm h => exact run' _ rfl (by simp) (main (by simp) hm)
  | report hm hh => exact run' _ rfl (by simp) (main (by simp) hm)

/-- only a step that makes a connection known changes who the peer is; what is said names the peer only while `Loop` runs -/
theorem said_step {E : Env} {es' : List Entry} {c c' : Conn} (h : Early c) (hs : CStep E c es' c') :
    c'.remote = c.remote ∧ (c'.info = c.info ∨ c.main = .begin ∧ ∃ id ip port, c.stage = .greeted id ip port ∧ c'.info = MakePeer E.v6 id ip port) ∧
    (c.main ≠ .begin → c'.main ≠ .begin) ∧
    ∀ e ∈ es', (∀ s ∈ strs e, s = c'.info.str ∧ c'.main ≠ .begin) ∧ (∀ s ∈ addrs e, s = c'.info.addr ∨ s = c'.remote) ∧ given e = [] := by
  have e' := early_step h hs
  have hmn := e'.quiet
  cases hs with
  | bitfield ip port id h1 =>
    refine ⟨rfl, .inr ⟨h.early (by simp [h1]), id, ip, port, h1, rfl⟩, fun h => h, ?_⟩
    intro e he
    rw [List.mem_singleton.mp he]
    exact ⟨by simp [Log.strs], by simp [Log.addrs], rfl⟩
  | _ =>
    refine ⟨rfl, .inl rfl, ?_, ?_⟩
    · first | exact fun h => h | (intro _ h; exact absurd h (by simp))
    · intro e he
      first
        | exact (List.not_mem_nil he).elim
        | (rw [List.mem_singleton.mp he]
           refine ⟨?_, ?_, rfl⟩
           · simp only [Log.strs, List.mem_singleton, List.not_mem_nil, false_implies, implies_true, forall_eq, true_and]
             try first | assumption | (intro hb; have := hmn hb; simp at this; done) | simp
           · simp [Log.addrs])

theorem texts_step {E : Env} {es es' : List Entry} {c c' : Conn} {id : Bytes} {ip : IP} {port : UInt16} (h : Texts E es c id ip port) (hs : CStep E c es' c') :
    ∃ id', Texts E (es ++ es') c' id' ip port := by
  obtain ⟨h1, h2, h3, h4, h5, he, h8, h9, h10⟩ := h
  obtain ⟨q1, q2, q3, q4⟩ := said_step he hs
  have e' := early_step he hs
  have st : (∀ ip' port', c'.stage = .shaking ip' port' → ip' = ip ∧ port' = port) ∧ (∀ id' ip' port', c'.stage = .good id' ip' port' → ip' = ip ∧ port' = port) ∧
      (∀ id' ip' port', c'.stage = .greeted id' ip' port' → ip' = ip ∧ port' = port) := by
    cases hs with
    | dialFails e h => exact ⟨by simp, by simp, by simp⟩
    | dialled h => exact ⟨by simp, by simp, by simp⟩
    | shakeFails ip port e h => exact ⟨by simp, by simp, by simp⟩
    | badHandshake ip port d h hv => exact ⟨by simp, by simp, by simp⟩
    | goodHandshake ip port d id h hv hid => exact ⟨by simp, by intro _ _ _ e; cases e; exact h3 _ _ h, by simp⟩
    | greetFails ip port id e h => exact ⟨by simp, by simp, by simp⟩
    | greet ip port id h => exact ⟨by simp, by simp, by intro _ _ _ e; cases e; exact h4 _ _ _ h⟩
    | bitfieldFails ip port id e h => exact ⟨by simp, by simp, by simp⟩
    | bitfield ip port id h => exact ⟨by simp, by simp, by simp⟩
    | _ => exact ⟨h3, h4, h5⟩
  rcases q2 with q2 | ⟨hb, id', ip', port', hst, q2⟩
  · refine ⟨id, q2.trans h1, q1.trans h2, st.1, st.2.1, st.2.2, e', ?_, ?_, ?_⟩
    · intro e he s hs
      rcases List.mem_append.mp he with he | he
      · have := h8 e he s hs
        exact ⟨by rw [q2]; exact this.1, q3 this.2⟩
      · exact (q4 e he).1 s hs
    · intro e he s hs
      rcases List.mem_append.mp he with he | he
      · have := h9 e he s hs
        rw [q1, q2]
        exact this
      · exact (q4 e he).2.1 s hs
    · intro e he
      rcases List.mem_append.mp he with he | he
      · exact h10 e he
      · exact (q4 e he).2.2
  · obtain ⟨rfl, rfl⟩ := h5 _ _ _ hst
    refine ⟨id', q2, q1.trans h2, st.1, st.2.1, st.2.2, e', ?_, ?_, ?_⟩
    · intro e he s hs
      rcases List.mem_append.mp he with he | he
      · exact absurd hb (h8 e he s hs).2
      · exact (q4 e he).1 s hs
    · intro e he s hs
      rcases List.mem_append.mp he with he | he
      · have := h9 e he s hs
        rw [h1] at this
        rw [q1, q2]
        exact this
      · exact (q4 e he).2.1 s hs
    · intro e he
      rcases List.mem_append.mp he with he | he
      · exact h10 e he
      · exact (q4 e he).2.2

theorem texts {E : Env} {first es : List Entry} {c0 c : Conn} (hb : Birth E first c0) (hr : CRun E c0 es c) : ∃ id ip port, Texts E (first ++ es) c id ip port := by
  induction hr with
  | nil =>
    cases hb with
    | outgoing id ip port =>
      exact ⟨id, ip, port, rfl, rfl, by simp [outgoing], by simp [outgoing], by simp [outgoing], ⟨fun _ => rfl, fun _ => ⟨rfl, rfl, rfl⟩⟩, by simp, by simp, by simp⟩
    | accepted ip port =>
      refine ⟨[], ip, port, rfl, rfl, ?_, by simp [accepted], by simp [accepted], ⟨fun _ => rfl, fun _ => ⟨rfl, rfl, rfl⟩⟩, by simp [Log.strs], ?_, by simp [Log.given]⟩
      · intro ip' port' h
        simp only [accepted, Stage.shaking.injEq] at h
        exact ⟨h.1.symm, h.2.symm⟩
      · simp [Log.addrs, accepted]
  | snoc es es' c c' _ hs ih =>
    obtain ⟨id, ip, port, h⟩ := ih
    obtain ⟨id', h'⟩ := texts_step h hs
    exact ⟨id', ip, port, by rw [← List.append_assoc]; exact h'⟩

end Verif.Log
