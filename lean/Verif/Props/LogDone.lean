import Verif.Props.LogStory
/-
C110: what must have been said before a connection is said to be done.
-/
set_option autoImplicit false

namespace Verif.Log
open Verif.P2P Verif.Wire Verif.Peer Verif.Handshake Verif.Bencode Verif.Bencode.Spec Verif.ShowSpec Verif.LogSpec Verif.Lts Verif.Show Verif.Startup Verif.Layout Verif.Bits

/-- pingLoop will not take part in anything more -/
def Ping.over : Ping → Prop
  | .told | .failed | .ending | .ended => True
  | _ => False

/-- recvLoop will not take part in anything more -/
def Recv.over : Recv → Prop
  | .finish | .blocked | .ending | .ended => True
  | _ => False

/-- who is over at which place of `Loop` -/
def OverInv (c : Conn) : Prop :=
  match c.main with
  | .begin | .wait => True
  | .killing _ | .kill => c.ping.over ∨ c.recv.over
  | .waitProcs => c.ping.over ∧ c.recv.over
  | .report | .returned => c.ping = .ended ∧ c.recv = .ended

theorem over_step {E : Env} {es' : List Entry} {c c' : Conn} (hs : CStep E c es' c') (h : OverInv c) : OverInv c' := by
  unfold OverInv at h ⊢
  cases hs with
  | waited hm h1 =>
    simp only [hm] at h
    simp only [Conn.idle, Bool.and_eq_true, Bool.or_eq_true, beq_iff_eq] at h1
    obtain ⟨h2, h3⟩ := h
    obtain ⟨⟨h4, h5⟩, -⟩ := h1
    constructor
    · rcases h4 with h4 | h4
      · rw [h4] at h2; exact h2.elim
      · exact h4
    · rcases h5 with h5 | h5
      · rw [h5] at h3; exact h3.elim
      · exact h5
  | killPing hm h1 =>
    simp only [hm, h1] at h
    rcases h with h | h
    · exact h.elim
    · exact ⟨trivial, h⟩
  | killRecv hm h1 =>
    simp only [hm, h1] at h
    rcases h with h | h
    · exact ⟨h, trivial⟩
    · exact h.elim
  | pingReport e h1 hm => exact .inl trivial
  | recvReport e h1 hm => exact .inr trivial
  | _ => (first | exact h | (simp_all; done) | (revert h; cases hm : c.main <;> simp_all [Ping.over, Recv.over]))

/-- what the log says when a connection is done -/
theorem done_run {E : Env} {first es : List Entry} {c0 c : Conn} (hb : Birth E first c0) (hr : CRun E c0 es c) :
    OverInv c ∧ ∀ A B a, first ++ es = A ++ .done a :: B → .pingEnd c.info.str ∈ A ∧ .recvEnd c.info.str ∈ A ∧ ∃ e, .killing c.info.str e ∈ A := by
  induction hr with
  | nil =>
    cases hb with
    | outgoing id ip port => exact ⟨trivial, fun A B a h => by simp at h⟩
    | accepted ip port =>
      refine ⟨trivial, fun A B a h => ?_⟩
      cases A with
      | nil => simp at h
      | cons x A => simp at h
  | snoc es es' c c' hrun hs ih =>
    refine ⟨over_step hs ih.1, ?_⟩
    intro A B a h
    have S := story hb hrun
    by_cases hd : ∃ a', .done a' ∈ es'
    · -- the line is written now
      obtain ⟨a', hd⟩ := hd
      cases hs <;> simp only [List.mem_singleton, List.not_mem_nil, reduceCtorEq] at hd
      rename_i hm hh
      have hover := ih.1
      simp only [OverInv, hm] at hover
      have hmain := S.main
      simp only [MainInv, hm] at hmain
      have hno : ∀ a, .done a ∉ first ++ es := by
        intro a ha
        have : .done a ∈ of .main (first ++ es) := List.mem_filter.mpr ⟨ha, rfl⟩
        obtain ⟨e, q | ⟨e', q⟩⟩ := hmain <;> (rw [q] at this; simp at this)
      have hA : A = first ++ es := by
        rw [← List.append_assoc] at h
        rcases List.append_eq_append_iff.mp h with ⟨X, h1, h2⟩ | ⟨X, h1, h2⟩
        · cases X with
          | nil => simpa using h1
          | cons x X => simp at h2
        · cases X with
          | nil => simpa using h1.symm
          | cons x X =>
            rw [List.cons_append] at h2
            injection h2 with h2 h3
            exact absurd (by rw [h1, ← h2]; simp) (hno a)
      rw [hA]
      refine ⟨?_, ?_, ?_⟩
      · have := S.ping
        simp only [PingInv, hover.1] at this
        obtain ⟨l, q, -⟩ := this
        have hin : .pingEnd c.info.str ∈ of .ping (first ++ es) := by rw [q]; simp [pingStory]
        exact (List.mem_filter.mp hin).1
      · have := S.recv
        simp only [RecvInv, hover.2] at this
        obtain ⟨body, q, -⟩ := this
        have hin : .recvEnd c.info.str ∈ of .recv (first ++ es) := by rw [q]; simp
        exact (List.mem_filter.mp hin).1
      · obtain ⟨e, q⟩ := hmain
        refine ⟨e, ?_⟩
        have hin : .killing c.info.str e ∈ of .main (first ++ es) := by
          rcases q with q | ⟨e', q⟩ <;> (rw [q]; simp)
        exact (List.mem_filter.mp hin).1
    · -- it was there before
      rw [← List.append_assoc] at h
      have hin : .done a ∈ first ++ es := by
        have : .done a ∈ (first ++ es) ++ es' := by rw [h]; simp
        rcases List.mem_append.mp this with q | q
        · exact q
        · exact absurd ⟨a, q⟩ hd
      have hinfo : c'.info = c.info := by
        cases hs <;> first | rfl | skip
        rename_i h1
        have hbeg := S.early.early (by simp [h1])
        have hmain := S.main
        simp only [MainInv, hbeg] at hmain
        have : .done a ∈ of .main (first ++ es) := List.mem_filter.mpr ⟨hin, rfl⟩
        rw [hmain] at this
        cases this
      rw [hinfo]
      rcases List.append_eq_append_iff.mp h with ⟨X, h1, h2⟩ | ⟨X, h1, h2⟩
      · exact absurd ⟨a, by rw [h2]; simp⟩ hd
      · cases X with
        | nil => exact absurd ⟨a, by rw [List.nil_append] at h2; rw [← h2]; simp⟩ hd
        | cons x X =>
          rw [List.cons_append] at h2
          injection h2 with h2 h3
          exact ih.2 A X a (by rw [h1, ← h2])

/-- **C110**: if it is ever said that a connection is done (which takes somebody who receives from `ph.chErr`, see `C110_refuted_done`), then it was said before that it is killed, that
pingLoop ends and that recvLoop ends. -/
theorem C110_done (sp : Bool) (w : World) (o : Options) (id : Bytes) (readOk : Bool) (pc : Bytes) (fs fs' : FS.State) (st : Started) (es : List Entry)
    (h : Starts sp w o id readOk pc fs (.ok st) fs' es) (E : Env) (σ₀ σ : State) (h0 : Initial es σ₀) (hr : Reach (Step E) σ₀ σ) (i : Nat) (c : Conn) (hi : σ.conns[i]? = some c)
    (A B : List Entry) (a : Bytes) (hd : own σ i = A ++ .done a :: B) :
    .pingEnd c.info.str ∈ A ∧ .recvEnd c.info.str ∈ A ∧ ∃ e, .killing c.info.str e ∈ A := by
  obtain ⟨he, -⟩ := started_log h
  subst he
  obtain ⟨first, c0, es, hb, hrun, ho⟩ := (project h0 start_texts hr).2 i c hi
  rw [ho] at hd
  exact (done_run hb hrun).2 A B a hd

/-- the hypotheses: a program that has started and that somebody listens to, and a connection that is said to be done -/
example : ∃ st fs' es, Starts false exWorld exOptions (List.replicate 20 65) true (ascii "0") exDisk (.ok st) fs' es ∧ Initial es (exLog es) ∧
    ∃ σ c, Reach (Step { exEnv with heard := true }) (exLog es) σ ∧ σ.conns[0]? = some c ∧ ∃ A B a, own σ 0 = A ++ .done a :: B := by
  obtain ⟨st, fs', h, -⟩ := ex_starts
  obtain ⟨es, h⟩ := (C109_starts_iff _ _ _ _ _ (ascii "0") _ _ _).mp h
  refine ⟨st, fs', es, h, exLog_initial es, ?_⟩
  have s0 : Reach (Step { exEnv with heard := true }) (exLog es) ⟨[] ++ [_], false, _⟩ := .tail _ _ .refl (.call (ascii "-GT0001-abcdefghijkl") [10, 0, 0, 7] 80)
  have s1 := go_on s0 (.dialled rfl) aTime
  have s2 := go_on s1 (.unchoke rfl rfl) aTime
  have s3 := go_on s2 (.recvStart (by simp) rfl) aTime
  have s4 := go_on s3 (.pingStart (by simp) rfl) aTime
  have s5 := go_on s4 (.recvFail (ascii "EOF") rfl) aTime
  have s6 := go_on s5 (.recvReport (ascii "EOF") rfl rfl) aTime
  have s7 := go_on s6 (.says (ascii "EOF") rfl) aTime
  have s8 := go_on s7 (.killPing rfl rfl) aTime
  have s9 := go_on s8 (.recvEnd rfl) aTime
  have s10 := go_on s9 (.pingEnd rfl) aTime
  have s11 := go_on s10 (.waited rfl rfl) aTime
  have s12 := go_on s11 (.report rfl rfl) aTime
  refine ⟨_, _, s12, rfl, ?_⟩
  simp only [own, List.filter_append, List.map_append]
  exact ⟨_, [], _, rfl⟩

end Verif.Log
