import Verif.Model.Peer
import Verif.Lemmas.BencodeBasic
import Verif.Props.PieceTracker
/-
Property C61: the key of a peer in the availability tracker (/repo/src/peer/info.go, peerhandler.go:317-319).
-/
set_option autoImplicit false

namespace Verif.Peer
open Verif.Bencode Verif.PieceTracker

/-- decimal numbers in front of something that is not a digit can be read back -/
theorem natDec_sep (n m : Nat) (c : UInt8) (r s : Bytes) (hc : isDigit c = false) (h : natDec n ++ c :: r = natDec m ++ c :: s) : n = m ∧ r = s := by
  have e : natDec n = natDec m := by
    rw [← takeWhile_digits (natDec n) c r (natDec_digits n) hc, h, takeWhile_digits _ _ _ (natDec_digits m) hc]
  refine ⟨by rw [← digitsVal_natDec n, e, digitsVal_natDec], ?_⟩
  rw [e] at h
  exact (List.cons.inj (List.append_cancel_left h)).2

/-- the last occurrence of a character splits a string in one way -/
theorem split_last (a b s t : Bytes) (c : UInt8) (hs : c ∉ s) (ht : c ∉ t) (h : a ++ c :: s = b ++ c :: t) : a = b ∧ s = t := by
  rcases List.append_eq_append_iff.mp h with ⟨x, e1, e2⟩ | ⟨x, e1, e2⟩
  · cases x with
    | nil => simp only [List.nil_append, List.append_nil] at e1 e2; exact ⟨e1.symm, (List.cons.inj e2).2⟩
    | cons y ys =>
      obtain ⟨rfl, e3⟩ := List.cons.inj e2
      exact absurd (by rw [e3]; simp) hs
  · cases x with
    | nil => simp only [List.nil_append, List.append_nil] at e1 e2; exact ⟨e1, (List.cons.inj e2).2.symm⟩
    | cons y ys =>
      obtain ⟨rfl, e3⟩ := List.cons.inj e2
      exact absurd (by rw [e3]; simp) ht

theorem ipString_v4 (v6 : IP → Bytes) (ip : IP) (a b c d : UInt8) (h : To4 ip = some (a, b, c, d)) :
    ipString v6 ip = natDec a.toNat ++ [46] ++ natDec b.toNat ++ [46] ++ natDec c.toNat ++ [46] ++ natDec d.toNat := by
  unfold ipString
  rw [if_neg (by rintro rfl; cases h), h]

/-- an IPv4 address, in the form of four bytes or in that of an IPv6 address -/
def IsIPv4 (ip : Bytes) : UInt8 × UInt8 × UInt8 × UInt8 → Prop
  | (a, b, c, d) => ip = [a, b, c, d] ∨ ip = List.replicate 10 0 ++ [255, 255, a, b, c, d]

theorem isIPv4_to4 {ip : IP} {q : UInt8 × UInt8 × UInt8 × UInt8} (h : IsIPv4 ip q) : To4 ip = some q := by
  obtain ⟨a, b, c, d⟩ := q
  rcases h with rfl | rfl <;> rfl

/-- **C61**: two peers with IPv4 addresses have the same key precisely if id, address and port agree. -/
theorem C61_key_injective (v6 : IP → Bytes) (id id' : Bytes) (ip ip' : IP) (port port' : UInt16) (q q' : UInt8 × UInt8 × UInt8 × UInt8)
    (h : IsIPv4 ip q) (h' : IsIPv4 ip' q') :
    (MakePeer v6 id ip port).str = (MakePeer v6 id' ip' port').str ↔ id = id' ∧ q = q' ∧ port = port' := by
  obtain ⟨a, b, c, d⟩ := q
  obtain ⟨a', b', c', d'⟩ := q'
  simp only [MakePeer, ipString_v4 v6 ip a b c d (isIPv4_to4 h), ipString_v4 v6 ip' a' b' c' d' (isIPv4_to4 h')]
  constructor
  · intro e
    have hat : ∀ (n : Nat), (64 : UInt8) ∉ natDec n := fun n hm => by
      have := natDec_digits n 64 hm; revert this; decide
    have hno : ∀ (a b c d : Nat) (p : Nat), (64 : UInt8) ∉
        (32 :: (natDec a ++ 46 :: (natDec b ++ 46 :: (natDec c ++ 46 :: (natDec d ++ 58 :: natDec p)))) : Bytes) := by
      intro a b c d p hm
      simp only [List.mem_cons, List.mem_append, hat, false_or] at hm
      revert hm; decide
    have e2 : (id ++ [32]) ++ 64 :: (32 :: (natDec a.toNat ++ 46 :: (natDec b.toNat ++ 46 :: (natDec c.toNat ++ 46 :: (natDec d.toNat ++ 58 :: natDec port.toNat))))) =
        (id' ++ [32]) ++ 64 :: (32 :: (natDec a'.toNat ++ 46 :: (natDec b'.toNat ++ 46 :: (natDec c'.toNat ++ 46 :: (natDec d'.toNat ++ 58 :: natDec port'.toNat))))) := by
      have ea : ascii " @ " = [32, 64, 32] := by decide
      simpa [ea] using e
    obtain ⟨e3, e4⟩ := split_last _ _ _ _ 64 (hno _ _ _ _ _) (hno _ _ _ _ _) e2
    obtain ⟨f1, e5⟩ := natDec_sep _ _ 46 _ _ (by decide) (List.cons.inj e4).2
    obtain ⟨f2, e6⟩ := natDec_sep _ _ 46 _ _ (by decide) e5
    obtain ⟨f3, e7⟩ := natDec_sep _ _ 46 _ _ (by decide) e6
    obtain ⟨f4, e8⟩ := natDec_sep _ _ 58 _ _ (by decide) e7
    have f5 : port.toNat = port'.toNat := by rw [← digitsVal_natDec port.toNat, e8, digitsVal_natDec]
    refine ⟨List.append_cancel_right e3, ?_, UInt16.toNat.inj f5⟩
    rw [UInt8.toNat.inj f1, UInt8.toNat.inj f2, UInt8.toNat.inj f3, UInt8.toNat.inj f4]
  · rintro ⟨rfl, e, rfl⟩
    cases e; rfl

/-- the same peer id with two addresses; an id that contains what separates the parts -/
example : IsIPv4 (IPv4 10 0 0 1) (10, 0, 0, 1) ∧ IsIPv4 [10, 0, 0, 1] (10, 0, 0, 1) ∧
    (MakePeer (fun _ => []) (ascii "a @ 1.1.1.1:1") [10, 0, 0, 1] 80).str ≠ (MakePeer (fun _ => []) (ascii "a") [1, 1, 1, 1] 1).str := by
  refine ⟨.inr rfl, .inl rfl, fun e => ?_⟩
  have := ((C61_key_injective _ _ _ _ _ _ _ (10, 0, 0, 1) (1, 1, 1, 1) (.inl rfl) (.inl rfl)).mp e).2.2
  exact absurd this (by decide)

/-- **C61**, in the tracker: when the handler of a peer is unregistered, another peer with a different id, address or port keeps all its
registrations. -/
theorem C61_others_kept (v6 : IP → Bytes) (id id' : Bytes) (ip ip' : IP) (port port' : UInt16) (q q' : UInt8 × UInt8 × UInt8 × UInt8)
    (h : IsIPv4 ip q) (h' : IsIPv4 ip' q') (hne : ¬ (id = id' ∧ q = q' ∧ port = port'))
    (size : Nat) (cs : List Call) (t : Tracker) (hr : Reached size cs t) (w : PH) (hw : w.key = (MakePeer v6 id' ip' port').str) :
    ∃ t', Unregister t w = .ok t' ∧ ∀ i, i < size →
      (RegisteredFor t' i (MakePeer v6 id ip port).str ↔ RegisteredFor t i (MakePeer v6 id ip port).str) := by
  obtain ⟨t', e, -, hreg, -⟩ := C49_unregister size cs t hr w
  refine ⟨t', e, fun i hi => ?_⟩
  rw [hreg i hi, hw]
  constructor
  · exact And.left
  · exact fun hx => ⟨hx, fun he => hne ((C61_key_injective v6 id id' ip ip' port port' q q' h h').mp he)⟩

end Verif.Peer
