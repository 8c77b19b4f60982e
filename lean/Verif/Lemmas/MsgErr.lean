import Verif.Model.MsgErr
import Verif.Props.Peer
import Verif.Spec.MsgErr
import Verif.Props.MsgHandler
/-
Lemmas for C111 and C112.
-/
set_option autoImplicit false

namespace Verif.MsgErr
open Verif.P2P Verif.Bf Verif.Bencode Verif.FileIO Verif.Files Verif.MsgHandler Verif.FS Verif.PieceTracker Verif.Wire Verif.MsgErrSpec

/-! ### the models with and without texts -/

/-- a result without the text of the error -/
def plain {α : Type} : Res (Except DecErr α) → Res α
  | .ok (.ok a) => .ok a
  | .ok (.error _) => .err .other
  | .err e => .err e
  | .panic => .panic
  | .timeout => .timeout

/-- the result of `Decode` without the text of the error -/
def plainD : Res (Except DecErr P2P.Msg × Nat) → Res DecodeResult
  | .ok (.ok m, n) => .ok ⟨some m, n⟩
  | .ok (.error _, n) => .ok ⟨none, n⟩
  | .err e => .err e
  | .panic => .panic
  | .timeout => .timeout

theorem have_plain (p : Bytes) : plain (DecodeMsgHaveT p) = DecodeMsgHave p := by
  unfold DecodeMsgHaveT DecodeMsgHave
  split
  · rfl
  · cases getU32 p <;> rfl

theorem request_plain (p : Bytes) : plain (DecodeMsgRequestT p) = DecodeMsgRequest p := by
  unfold DecodeMsgRequestT DecodeMsgRequest
  split
  · rfl
  · cases slice p 0 4 with
    | ok a =>
      simp only [Res.ok_bind]
      cases getU32 a with
      | ok a =>
        simp only [Res.ok_bind]
        cases slice p 4 8 with
        | ok b =>
          simp only [Res.ok_bind]
          cases getU32 b with
          | ok b =>
            simp only [Res.ok_bind]
            cases slice p 8 12 with
            | ok c =>
              simp only [Res.ok_bind]
              cases getU32 c <;> rfl
            | _ => rfl
          | _ => rfl
        | _ => rfl
      | _ => rfl
    | _ => rfl

theorem piece_plain (p : Bytes) (l : UInt32) : plain (DecodeMsgPieceT p l) = DecodeMsgPiece p l := by
  unfold DecodeMsgPieceT DecodeMsgPiece
  split
  · rfl
  · split
    · rfl
    · cases slice p 0 4 with
      | ok a =>
        simp only [Res.ok_bind]
        cases getU32 a with
        | ok a =>
          simp only [Res.ok_bind]
          cases slice p 4 8 with
          | ok b =>
            simp only [Res.ok_bind]
            cases getU32 b <;> rfl
          | _ => rfl
        | _ => rfl
      | _ => rfl

theorem fromBytes_plain (b : Bytes) (n : Int) : plain (FromBytesT b n) = FromBytes b n := by
  unfold FromBytesT FromBytes
  simp only
  split
  · rfl
  · split
    · rfl
    · cases calcNset (b.drop 5) n <;> rfl

theorem bitfield_plain (d : Bytes) (l : UInt32) : plain (DecodeMsgBitfieldT d l) = DecodeMsgBitfield d l := by
  unfold DecodeMsgBitfieldT DecodeMsgBitfield
  cases slice d 0 (4 + l).toNat with
  | ok c =>
    simp only [Res.ok_bind]
    rw [← fromBytes_plain]
    cases FromBytesT c ((l - 1).toNat * 8) with
    | ok r => cases r <;> rfl
    | _ => rfl
  | _ => rfl

theorem withRead_plain (n : Nat) (r : Res (Except DecErr P2P.Msg)) (h : ∀ e, r ≠ .err e) : plainD (withReadT n r) = withRead n (plain r) := by
  cases r with
  | ok r => cases r <;> rfl
  | err e => exact absurd rfl (h e)
  | _ => rfl

theorem getU32_noErr (b : Bytes) (e : Err) : getU32 b ≠ .err e := by
  unfold getU32
  split <;> simp

theorem slice_noErr (b : Bytes) (lo hi : Nat) (e : Err) : slice b lo hi ≠ .err e := by
  unfold slice
  split <;> simp

theorem calcNset_noErr (b : Bytes) (n : Int) (e : Err) : calcNset b n ≠ .err e := by
  unfold calcNset
  simp only
  repeat' split
  all_goals simp

theorem bind_noErr {α β : Type} {x : Res α} {f : α → Res β} (hx : ∀ e, x ≠ .err e) (hf : ∀ a e, f a ≠ .err e) (e : Err) : (x >>= f) ≠ .err e := by
  cases x with
  | ok a => exact hf a e
  | err e' => exact absurd rfl (hx e')
  | panic => exact fun h => by cases h
  | timeout => exact fun h => by cases h

theorem have_noErr (p : Bytes) (e : Err) : DecodeMsgHaveT p ≠ .err e := by
  unfold DecodeMsgHaveT
  split
  · simp
  · exact bind_noErr (getU32_noErr p) (fun a e => by simp) e

theorem request_noErr (p : Bytes) (e : Err) : DecodeMsgRequestT p ≠ .err e := by
  unfold DecodeMsgRequestT
  split
  · simp
  · exact bind_noErr (slice_noErr _ _ _) (fun a => bind_noErr (getU32_noErr a) fun b => bind_noErr (slice_noErr _ _ _) fun c => bind_noErr (getU32_noErr c) fun d =>
      bind_noErr (slice_noErr _ _ _) fun f => bind_noErr (getU32_noErr f) fun g e => by simp) e

theorem piece_noErr (p : Bytes) (l : UInt32) (e : Err) : DecodeMsgPieceT p l ≠ .err e := by
  unfold DecodeMsgPieceT
  split
  · simp
  · split
    · simp
    · exact bind_noErr (slice_noErr _ _ _) (fun a => bind_noErr (getU32_noErr a) fun b => bind_noErr (slice_noErr _ _ _) fun c => bind_noErr (getU32_noErr c) fun d e => by simp) e

theorem fromBytes_noErr (b : Bytes) (n : Int) (e : Err) : FromBytesT b n ≠ .err e := by
  unfold FromBytesT
  split
  · simp
  · split
    · simp
    · exact bind_noErr (calcNset_noErr _ _) (fun a e => by simp) e

theorem bitfield_noErr (d : Bytes) (l : UInt32) (e : Err) : DecodeMsgBitfieldT d l ≠ .err e := by
  unfold DecodeMsgBitfieldT
  refine bind_noErr (slice_noErr _ _ _) (fun a => bind_noErr (fromBytes_noErr _ _) fun r e => ?_) e
  cases r <;> simp

theorem withReadBitfield_plain (r : Res (Except DecErr P2P.Msg)) (h : ∀ e, r ≠ .err e) : plainD (withReadBitfieldT r) = withReadBitfield (plain r) := by
  cases r with
  | ok r => cases r <;> rfl
  | err e => exact absurd rfl (h e)
  | _ => rfl

theorem withReadPiece_plain (r : Res (Except DecErr P2P.Msg)) (h : ∀ e, r ≠ .err e) : plainD (withReadPieceT r) = withReadPiece (plain r) := by
  cases r with
  | ok r => cases r <;> rfl
  | err e => exact absurd rfl (h e)
  | _ => rfl

theorem typed_plain (d : Bytes) (l : UInt32) (t : UInt8) : plainD (decodeTypedT d l t) = decodeTyped d l t := by
  unfold decodeTypedT decodeTyped
  split
  · rfl
  · split
    · rfl
    · cases slice d 5 (5 + l - 1).toNat with
      | ok p =>
        simp only [Res.ok_bind]
        generalize t.toNat = k
        match k with
        | 0 | 1 | 2 | 3 => rfl
        | 4 => exact (withRead_plain _ _ (have_noErr p)).trans (congrArg _ (have_plain p))
        | 5 => exact (withReadBitfield_plain _ (bitfield_noErr d l)).trans (congrArg _ (bitfield_plain d l))
        | 6 => exact (withRead_plain _ _ (request_noErr p)).trans (congrArg _ (request_plain p))
        | 7 => exact (withReadPiece_plain _ (piece_noErr p l)).trans (congrArg _ (piece_plain p l))
        | k + 8 => rfl
      | _ => rfl

theorem decode_plain (d : Bytes) : plainD (DecodeT d) = P2P.Decode d := by
  unfold DecodeT P2P.Decode
  split
  · rfl
  · cases getU32 (d.take 4) with
    | ok l =>
      simp only [Res.ok_bind]
      split
      · rfl
      · cases d[4]? with
        | none => rfl
        | some t => exact typed_plain d l t
    | _ => rfl

/-! ### the errors of `Decode` -/

theorem toNat_ofNat {n : Nat} (h : n < 2 ^ 32) : (UInt32.ofNat n).toNat = n := UInt32.toNat_ofNat_of_lt' h

theorem text_have (n : Nat) : (DecErr.have n).text = ascii "have message must have 4 byte payload, got " ++ natDec n := by
  simp only [DecErr.text]; exact congrArg (· ++ natDec n) (by decide +kernel : ascii "have message must have " ++ natDec 4 ++ ascii " byte payload, got " = ascii "have message must have 4 byte payload, got ")

theorem text_request (n : Nat) : (DecErr.request n).text = ascii "request message must have 12 byte payload, got " ++ natDec n := by
  simp only [DecErr.text]; exact congrArg (· ++ natDec n) (by decide +kernel : ascii "request message must have " ++ natDec 12 ++ ascii " byte payload, got " = ascii "request message must have 12 byte payload, got ")

theorem fault_of {data : Bytes} (hlen : data.length < 2 ^ 32) {e : DecErr} {n : Nat} (h : DecodeT data = .ok (.error e, n)) : Fault data e.text n := by
  unfold DecodeT at h
  split at h
  · rename_i h4
    cases h
    exact .short h4
  · rename_i h4
    rw [getU32_of_len _ (by rw [List.length_take]; omega), show prefixLen (data.take 4) = prefixLen data by unfold prefixLen; rw [List.take_take]; rfl] at h
    simp only [Res.ok_bind] at h
    have hlt := prefixLen_lt data
    have htn := toNat_ofNat hlt
    split at h
    · cases h
    · rename_i h0
      have h0 : prefixLen data ≠ 0 := fun hc => h0 (by rw [hc]; rfl)
      split at h
      · rename_i hn
        cases h
        exact .untyped (by have := List.getElem?_eq_none_iff.mp hn; omega) h0
      · rename_i t ht
        have h5 : 5 ≤ data.length := by have := (List.getElem?_eq_some_iff.mp ht).1; omega
        unfold decodeTypedT at h
        split at h
        · rename_i h3
          cases h
          have := UInt8.le_iff_toNat_le.mp h3.1
          have e1 : (DecErr.fixed (UInt32.ofNat (prefixLen data))).text = ascii "invalid message, length for id [0-3] must be 1, got " ++ natDec (prefixLen data) := by
            simp only [DecErr.text]; rw [htn]
          rw [e1]
          exact .fixed t ht this h0 fun hc => h3.2 (by rw [hc]; rfl)
        · rename_i h3
          have hadd : (4 + UInt32.ofNat (prefixLen data)).toNat = (4 + prefixLen data) % 2 ^ 32 := by rw [UInt32.toNat_add, htn]; rfl
          have hadd5 : (5 + UInt32.ofNat (prefixLen data) - 1).toNat = (4 + prefixLen data) % 2 ^ 32 := by
            rw [← hadd]; congr 1
            rw [show (5 : UInt32) = 1 + 4 from rfl, UInt32.add_assoc]
            rw [UInt32.add_comm 1, UInt32.add_sub_cancel]
          have h3' : t.toNat ≤ 3 → prefixLen data = 1 := by
            intro hle
            refine Classical.byContradiction fun hne => h3 ⟨UInt8.le_iff_toNat_le.mpr hle, fun hc => hne ?_⟩
            have := congrArg UInt32.toNat hc
            rw [htn] at this
            exact this
          split at h
          · rename_i hs
            cases h
            rw [UInt32.lt_iff_toNat_lt, hadd, toNat_ofNat hlen] at hs
            have e1 : (DecErr.incomplete (UInt32.ofNat (prefixLen data)) data.length).text =
                ascii "length specified as " ++ natDec (prefixLen data) ++ ascii ", payload length is " ++ natDec data.length := by
              simp only [DecErr.text]; rw [htn]
            rw [e1]
            refine .incomplete t ht ?_ (by omega) (by omega)
            refine Classical.byContradiction fun hle => ?_
            have := h3' (by omega)
            omega
          · rename_i hs
            rw [UInt32.lt_iff_toNat_lt, hadd, toNat_ofNat hlen] at hs
            rw [hadd5] at h
            by_cases h2 : 2 ^ 32 - 4 ≤ prefixLen data
            · rw [slice_panic (by omega)] at h
              cases h
            · have hw : (4 + prefixLen data) % 2 ^ 32 = 4 + prefixLen data := by omega
              rw [hw] at h hs
              rw [slice_ok (by omega) (by omega)] at h
              simp only [Res.ok_bind] at h
              have hpl : ((data.take (4 + prefixLen data)).drop 5).length = prefixLen data - 1 := by
                rw [List.length_drop, List.length_take]; omega
              have htt : ∀ k : UInt8, t.toNat = k.toNat → t = k := fun k hk => UInt8.toNat.inj hk
              split at h
              · cases h
              · cases h
              · cases h
              · cases h
              · rename_i ht4
                rw [htt 4 ht4] at ht
                unfold DecodeMsgHaveT at h
                split at h
                · rename_i hne
                  cases h
                  rw [hpl] at hne ⊢
                  rw [text_have]
                  refine .have ht h0 (fun hc => hne (by rw [hc]; rfl)) (by omega) (by omega)
                · cases hg : getU32 ((data.take (4 + prefixLen data)).drop 5) <;> rw [hg] at h <;> cases h
              · rename_i ht5
                rw [htt 5 ht5] at ht
                unfold DecodeMsgBitfieldT at h
                rw [hadd, hw, slice_ok (by omega) (by omega)] at h
                simp only [Res.ok_bind, List.drop_zero] at h
                have hsub : (UInt32.ofNat (prefixLen data) - 1).toNat = prefixLen data - 1 := by
                  rw [UInt32.toNat_sub, htn]; show (2 ^ 32 - 1 + prefixLen data) % 2 ^ 32 = _; omega
                have hcl : (data.take (4 + prefixLen data)).length = 4 + prefixLen data := by rw [List.length_take]; omega
                rw [hsub] at h
                unfold FromBytesT at h
                rw [hcl] at h
                split at h
                · rename_i hle
                  cases h
                  exact .noBits ht (by omega)
                · rw [if_neg (by omega)] at h
                  cases hg : calcNset ((data.take (4 + prefixLen data)).drop 5) ((prefixLen data - 1 : Nat) * 8) <;> rw [hg] at h <;> cases h
              · rename_i ht6
                rw [htt 6 ht6] at ht
                have : ∃ r, DecodeMsgRequestT ((data.take (4 + prefixLen data)).drop 5) = .ok r ∧ (r, 17) = (Except.error e, n) := by
                  revert h
                  cases DecodeMsgRequestT ((data.take (4 + prefixLen data)).drop 5) with
                  | ok r => intro h; exact ⟨r, rfl, Res.ok.inj h⟩
                  | _ => intro h; cases h
                obtain ⟨r, h1, h2⟩ := this
                cases h2
                by_cases h12 : UInt32.ofNat ((data.take (4 + prefixLen data)).drop 5).length ≠ 12
                · unfold DecodeMsgRequestT at h1
                  rw [if_pos h12] at h1
                  cases h1
                  rw [hpl] at h12 ⊢
                  rw [text_request]
                  exact .request ht h0 (fun hc => h12 (by rw [hc]; rfl)) (by omega) (by omega)
                · have := congrArg plain h1
                  rw [request_plain, decodeRequest_eq _ (by rw [hpl]; omega), if_pos] at this
                  · cases this
                  · have := congrArg UInt32.toNat (Classical.not_not.mp h12)
                    rw [toNat_ofNat (by rw [hpl]; omega)] at this
                    exact this
              · cases hg : DecodeMsgPieceT ((data.take (4 + prefixLen data)).drop 5) (UInt32.ofNat (prefixLen data)) with
                | ok r => cases r <;> rw [hg] at h <;> cases h
                | _ => rw [hg] at h; cases h
              · cases h
                have hge : ¬ t.toNat ≤ 7 := by
                  intro hle
                  rcases (by omega : t.toNat = 0 ∨ t.toNat = 1 ∨ t.toNat = 2 ∨ t.toNat = 3 ∨ t.toNat = 4 ∨ t.toNat = 5 ∨ t.toNat = 6 ∨ t.toNat = 7) with
                    h | h | h | h | h | h | h | h <;> contradiction
                exact .unknown t ht (by omega) h0 (by omega) (by omega)

theorem frame_of {data : Bytes} {t : UInt8} (ht : data[4]? = some t) (hl : 4 + prefixLen data ≤ data.length) (h0 : prefixLen data ≠ 0) :
    ∃ p rest, data = be32 (prefixLen data) ++ t :: (p ++ rest) ∧ p.length + 1 = prefixLen data := by
  obtain ⟨t', r, hr⟩ := split_frame data (by have := (List.getElem?_eq_some_iff.mp ht).1; omega)
  have : t' = t := by
    rw [hr, List.getElem?_append_right (by rw [be32_length]; exact Nat.le_refl _), be32_length] at ht
    simpa using ht
  subst this
  have hd : data.length = 5 + r.length := by
    have := congrArg List.length hr
    rw [List.length_append, be32_length, List.length_cons] at this
    omega
  refine ⟨r.take (prefixLen data - 1), r.drop (prefixLen data - 1), by rw [List.take_append_drop]; exact hr, ?_⟩
  rw [List.length_take]; omega

theorem none_of_fault {data : Bytes} (hlen : data.length < 2 ^ 32) {x : Bytes} {n : Nat} (h : Fault data x n) : ∃ k, P2P.Decode data = .ok ⟨none, k⟩ := by
  have big : ∀ t : UInt8, data[4]? = some t → prefixLen data ≠ 0 → (t.toNat ≤ 3 ∧ prefixLen data ≠ 1 ∨ data.length < (4 + prefixLen data) % 2 ^ 32) →
      ∃ k, P2P.Decode data = .ok ⟨none, k⟩ := by
    intro t ht h0 hc
    obtain ⟨t', r, hr⟩ := split_frame data (by have := (List.getElem?_eq_some_iff.mp ht).1; omega)
    have : t' = t := by
      rw [hr, List.getElem?_append_right (by rw [be32_length]; exact Nat.le_refl _), be32_length] at ht
      simpa using ht
    subst this
    have hd : data.length = 5 + r.length := by
      have := congrArg List.length hr
      rw [List.length_append, be32_length, List.length_cons] at this
      omega
    rw [hr, decode_be32 _ (prefixLen_lt data), if_neg h0]
    split
    · exact ⟨_, rfl⟩
    · rename_i hn
      rw [if_pos (by rcases hc with hc | hc; exact absurd hc hn; omega)]
      exact ⟨_, rfl⟩
  have whole : ∀ t : UInt8, data[4]? = some t → prefixLen data ≠ 0 → prefixLen data < 2 ^ 32 - 4 → 4 + prefixLen data ≤ data.length → 3 < t.toNat →
      (t.toNat = 4 → prefixLen data ≠ 5) → (t.toNat = 5 → prefixLen data = 1) → (t.toNat = 6 → prefixLen data ≠ 13) → t.toNat ≠ 7 → ∃ k, P2P.Decode data = .ok ⟨none, k⟩ := by
    intro t ht h0 hs hl h3 a4 a5 a6 a7
    obtain ⟨p, rest, hr, hp⟩ := frame_of ht hl h0
    have hd : data.length = 5 + p.length + rest.length := by
      have := congrArg List.length hr
      rw [List.length_append, be32_length, List.length_cons, List.length_append] at this
      omega
    rw [hr, decode_frame _ t p rest hp hs (by omega) (by omega)]
    split
    · omega
    · omega
    · omega
    · omega
    · rename_i h; rw [if_neg (by have := a4 h; omega)]; exact ⟨_, rfl⟩
    · rename_i h; rw [if_pos (List.length_eq_zero_iff.mp (by have := a5 h; omega))]; exact ⟨_, rfl⟩
    · rename_i h; rw [if_neg (by have := a6 h; omega)]; exact ⟨_, rfl⟩
    · rename_i h; exact absurd h a7
    · exact ⟨_, rfl⟩
  cases h with
  | short h => exact ⟨_, by unfold P2P.Decode; rw [if_pos h]⟩
  | untyped h h0 =>
    refine ⟨data.length, ?_⟩
    unfold P2P.Decode
    rw [if_neg (by omega), getU32_of_len _ (by rw [List.length_take]; omega), show prefixLen (data.take 4) = prefixLen data by unfold prefixLen; rw [List.take_take]; rfl]
    simp only [Res.ok_bind]
    rw [if_neg (show ¬ UInt32.ofNat (prefixLen data) = 0 from ofNat_ne (prefixLen_lt data) (by decide) h0), List.getElem?_eq_none_iff.mpr (by omega)]
  | fixed t ht h h0 h1 => exact big t ht h0 (.inl ⟨h, h1⟩)
  | incomplete t ht h hs hl =>
    refine big t ht (fun h0 => ?_) (.inr (by omega))
    have := (List.getElem?_eq_some_iff.mp ht).1
    omega
  | «have» ht h0 h5 hs hl => exact whole 4 ht h0 hs hl (by decide) (fun _ => h5) (fun h => absurd h (by decide)) (fun h => absurd h (by decide)) (by decide)
  | noBits ht h1 =>
    have := (List.getElem?_eq_some_iff.mp ht).1
    exact whole 5 ht (by omega) (by omega) (by omega) (by decide) (fun h => absurd h (by decide)) (fun _ => h1) (fun h => absurd h (by decide)) (by decide)
  | request ht h0 h13 hs hl => exact whole 6 ht h0 hs hl (by decide) (fun h => absurd h (by decide)) (fun h => absurd h (by decide)) (fun _ => h13) (by decide)
  | unknown t ht h h0 hs hl => exact whole t ht h0 hs hl (by omega) (fun h => by omega) (fun h => by omega) (fun h => by omega) (by omega)

theorem fault_arith {data x : Bytes} {n : Nat} (h : Fault data x n) (len L T : Nat) (hl : len = data.length) (hL : L = prefixLen data) (hT : ∀ t, data[4]? = some t → T = t.toNat) :
    (len < 4 ∧ x = ascii "message length must be at least 4, got " ++ natDec data.length ∧ n = len) ∨
    (len = 4 ∧ x = ascii "non-keep-alive message length must be at least 5, got " ++ natDec data.length ∧ n = len) ∨
    (4 < len ∧ T ≤ 3 ∧ x = ascii "invalid message, length for id [0-3] must be 1, got " ++ natDec (prefixLen data) ∧ n = len) ∨
    (4 < len ∧ 3 < T ∧ len < 4 + L ∧ x = ascii "length specified as " ++ natDec (prefixLen data) ++ ascii ", payload length is " ++ natDec data.length ∧ n = len) ∨
    (4 < len ∧ T = 4 ∧ 4 + L ≤ len ∧ x = ascii "have message must have 4 byte payload, got " ++ natDec (prefixLen data - 1) ∧ n = 9) ∨
    (4 < len ∧ T = 5 ∧ L = 1 ∧ x = ascii "bytes5 must have length greater than 5 bytes" ∧ n = 0) ∨
    (4 < len ∧ T = 6 ∧ 4 + L ≤ len ∧ x = ascii "request message must have 12 byte payload, got " ++ natDec (prefixLen data - 1) ∧ n = 17) ∨
    (4 < len ∧ 7 < T ∧ 4 + L ≤ len ∧ x = ascii "unknown message type " ++ natDec T ∧ n = len) := by
  have h5 : ∀ t, data[4]? = some t → 4 < data.length := fun t ht => (List.getElem?_eq_some_iff.mp ht).1
  subst hl hL
  cases h with
  | short h => exact .inl ⟨h, rfl, rfl⟩
  | untyped h h0 => exact .inr (.inl ⟨h, rfl, rfl⟩)
  | fixed t ht h h0 h1 => exact .inr (.inr (.inl ⟨h5 t ht, hT t ht ▸ h, rfl, rfl⟩))
  | incomplete t ht h hs hl => exact .inr (.inr (.inr (.inl ⟨h5 t ht, hT t ht ▸ h, hl, rfl, rfl⟩)))
  | «have» ht h0 h5' hs hl => exact .inr (.inr (.inr (.inr (.inl ⟨h5 _ ht, hT _ ht, hl, rfl, rfl⟩))))
  | noBits ht h1 => exact .inr (.inr (.inr (.inr (.inr (.inl ⟨h5 _ ht, hT _ ht, h1, rfl, rfl⟩)))))
  | request ht h0 h13 hs hl => exact .inr (.inr (.inr (.inr (.inr (.inr (.inl ⟨h5 _ ht, hT _ ht, hl, rfl, rfl⟩))))))
  | unknown t ht h h0 hs hl =>
    have := hT t ht
    subst this
    exact .inr (.inr (.inr (.inr (.inr (.inr (.inr ⟨h5 _ ht, h, hl, rfl, rfl⟩))))))

theorem fault_unique {data x y : Bytes} {n k : Nat} (h : Fault data x n) (h' : Fault data y k) : x = y ∧ n = k := by
  have hT : ∀ t, data[4]? = some t → ((data[4]?).getD 0).toNat = t.toNat := fun t ht => by rw [ht]; rfl
  have a := fault_arith h _ _ _ rfl rfl hT
  have b := fault_arith h' _ _ _ rfl rfl hT
  clear h h' hT
  rcases a with ⟨a1, a2, a3⟩ | ⟨a1, a2, a3⟩ | ⟨a1, a4, a2, a3⟩ | ⟨a1, a4, a5, a2, a3⟩ | ⟨a1, a4, a5, a2, a3⟩ | ⟨a1, a4, a5, a2, a3⟩ | ⟨a1, a4, a5, a2, a3⟩ | ⟨a1, a4, a5, a2, a3⟩ <;>
    rcases b with ⟨b1, b2, b3⟩ | ⟨b1, b2, b3⟩ | ⟨b1, b4, b2, b3⟩ | ⟨b1, b4, b5, b2, b3⟩ | ⟨b1, b4, b5, b2, b3⟩ | ⟨b1, b4, b5, b2, b3⟩ | ⟨b1, b4, b5, b2, b3⟩ | ⟨b1, b4, b5, b2, b3⟩ <;>
    first
    | (exfalso; clear a2 b2; omega)
    | exact ⟨a2.trans b2.symm, a3.trans b3.symm⟩

theorem withRead_noErr (n : Nat) {r : Res (Except DecErr P2P.Msg)} (h : ∀ e, r ≠ .err e) (e : Err) : withReadT n r ≠ .err e ∧ withReadBitfieldT r ≠ .err e ∧ withReadPieceT r ≠ .err e := by
  cases r with
  | ok r => cases r <;> simp [withReadT, withReadBitfieldT, withReadPieceT]
  | err e' => exact absurd rfl (h e')
  | panic => simp [withReadT, withReadBitfieldT, withReadPieceT]
  | timeout => simp [withReadT, withReadBitfieldT, withReadPieceT]

theorem decodeT_noErr (d : Bytes) (e : Err) : DecodeT d ≠ .err e := by
  unfold DecodeT
  split
  · simp
  · refine bind_noErr (getU32_noErr _) (fun l e => ?_) e
    split
    · simp
    · split
      · simp
      · unfold decodeTypedT
        split
        · simp
        · split
          · simp
          · refine bind_noErr (slice_noErr _ _ _) (fun p e => ?_) e
            split
            · simp
            · simp
            · simp
            · simp
            · exact (withRead_noErr 9 (have_noErr p) e).1
            · exact (withRead_noErr 9 (bitfield_noErr d l) e).2.1
            · exact (withRead_noErr 17 (request_noErr p) e).1
            · exact (withRead_noErr 9 (piece_noErr p l) e).2.2
            · simp

/-! ### numbers in texts -/

theorem natDec_head (n : Nat) (c : UInt8) (r s : Bytes) (hc : isDigit c = false) : natDec n ++ r ≠ c :: s := by
  obtain ⟨d, t, h, hd⟩ := natDec_cons n
  rw [h]
  intro he
  have := (List.cons.inj he).1
  rw [this, hc] at hd
  cases hd

theorem intDec_sep (n m : Int) (c : UInt8) (r s : Bytes) (hc : isDigit c = false) (h : intDec n ++ c :: r = intDec m ++ c :: s) : n = m ∧ r = s := by
  unfold intDec at h
  split at h
  · split at h
    · rw [List.cons_append, List.cons_append] at h
      have := Peer.natDec_sep _ _ c r s hc (List.cons.inj h).2
      exact ⟨by omega, this.2⟩
    · exact absurd h.symm (natDec_head _ 45 _ _ (by decide))
  · split at h
    · exact absurd h (natDec_head _ 45 _ _ (by decide))
    · have := Peer.natDec_sep _ _ c r s hc h
      exact ⟨by omega, this.2⟩

theorem intDec_inj {n m : Int} (h : intDec n = intDec m) : n = m :=
  (intDec_sep n m 44 [] [] (by decide) (by rw [h])).1

theorem natDec_inj {n m : Nat} (h : natDec n = natDec m) : n = m :=
  (Peer.natDec_sep n m 44 [] [] (by decide) (by rw [h])).1

/-! ### handling messages, with and without texts -/

/-- what the models without texts keep of an error -/
def KillErr.kind : KillErr → Err
  | .bitfield => .other
  | .negative => .other
  | .bounds => .other
  | .path _ => .path
  | .eof => .eof
  | .os _ => .os

def plainK {α : Type} : Res (Except KillErr α) → Res α
  | .ok (.ok a) => .ok a
  | .ok (.error e) => .err e.kind
  | .err e => .err e
  | .panic => .panic
  | .timeout => .timeout

theorem lookup_plain (ti : TorInfo) (i : Int) : plainK (PieceLookupT ti i) = ti.PieceLookup i := by
  unfold PieceLookupT TorInfo.PieceLookup
  split
  · rfl
  · split
    · rfl
    · cases ti.pm[i.toNat]? <;> rfl

theorem readLoop_plain (oserr : Bytes → Bytes) (fs : FS.State) (fio : FileIO) : ∀ (ls : List PieceLocation) (off : Nat) (buf : Bytes),
    plainK (readLoopT oserr fs fio ls off buf) = readLoop fs fio ls off buf
  | [], _, _ => rfl
  | l :: ls, off, buf => by
    unfold readLoopT readLoop
    split
    · rfl
    · cases fio.torInfo.flist[l.fidx]? with
      | none => rfl
      | some e =>
        dsimp only
        split
        · cases fs e.base.localPath with
          | none => rfl
          | some c =>
            dsimp only
            split
            · rfl
            · split
              · rfl
              · exact readLoop_plain oserr fs fio ls _ _
        · rfl

theorem readPiece_plain (oserr : Bytes → Bytes) (fs : FS.State) (fio : FileIO) (i : Int) (buf : Bytes) : plainK (ReadPieceT oserr fs fio i buf) = ReadPiece fs fio i buf := by
  unfold ReadPieceT ReadPiece
  rw [← lookup_plain]
  cases PieceLookupT fio.torInfo i with
  | ok r =>
    cases r with
    | ok l => exact readLoop_plain oserr fs fio l 0 buf
    | error e => rfl
  | _ => rfl

theorem bitfieldK_plain (s : Swarm) (me : PH) (b : Bitfield) (st : St) :
    (handleBitfieldT s me b st).1 = (handleBitfield s me b st).1 ∧ plainK (handleBitfieldT s me b st).2 = (handleBitfield s me b st).2 := by
  unfold handleBitfieldT handleBitfield
  split
  · exact ⟨rfl, rfl⟩
  · cases b.SetNbits s.tor.numPieces with
    | ok b' =>
      dsimp only
      cases RegisterBF st.ppt me b' <;> exact ⟨rfl, rfl⟩
    | _ => exact ⟨rfl, rfl⟩

theorem requestK_plain (oserr : Bytes → Bytes) (s : Swarm) (i b l : UInt32) (werr : Option Bytes) (st : St) :
    (handleRequestT oserr s i b l werr st).1 = (handleRequest s i b l werr.isNone st).1 ∧
    plainK (handleRequestT oserr s i b l werr st).2 = (handleRequest s i b l werr.isNone st).2 := by
  unfold handleRequestT handleRequest
  cases mayServe s i.toNat with
  | ok v =>
    cases v with
    | false => exact ⟨rfl, rfl⟩
    | true =>
      dsimp only
      rw [← readPiece_plain oserr]
      cases ReadPieceT oserr s.fs s.fio i.toNat st.buf with
      | ok r =>
        cases r with
        | error e => exact ⟨rfl, rfl⟩
        | ok x =>
          obtain ⟨n, buf⟩ := x
          simp only [plainK]
          cases answer buf i b l with
          | ok m => cases werr <;> exact ⟨rfl, rfl⟩
          | _ => exact ⟨rfl, rfl⟩
      | _ => exact ⟨rfl, rfl⟩
  | _ => exact ⟨rfl, rfl⟩

theorem one_plain (oserr : Bytes → Bytes) (s : Swarm) (me : PH) (werr : Nat → Option Bytes) (m : P2P.Msg) (st : St) :
    (handleOneT oserr s me werr m st).1 = (handleOne s me (fun n => (werr n).isNone) m st).1 ∧
    plainK (handleOneT oserr s me werr m st).2 = (handleOne s me (fun n => (werr n).isNone) m st).2 := by
  cases m with
  | request i b l => exact requestK_plain oserr s i b l _ st
  | bitfield n b => exact bitfieldK_plain s me b st
  | _ => exact ⟨rfl, rfl⟩

theorem all_plain (oserr : Bytes → Bytes) (s : Swarm) (me : PH) (werr : Nat → Option Bytes) : ∀ (ms : List P2P.Msg) (st : St),
    (handleAllT oserr s me werr ms st).1 = (handleAll s me (fun n => (werr n).isNone) ms st).1 ∧
    plainK (handleAllT oserr s me werr ms st).2 = (handleAll s me (fun n => (werr n).isNone) ms st).2
  | [], st => ⟨rfl, rfl⟩
  | m :: ms, st => by
    unfold handleAllT handleAll
    have h := one_plain oserr s me werr m st
    revert h
    rcases handleOneT oserr s me werr m st with ⟨st', r⟩
    rcases handleOne s me (fun n => (werr n).isNone) m st with ⟨st2, r2⟩
    rintro ⟨h1, h2⟩
    dsimp only at h1 h2
    subst h1 h2
    cases r with
    | ok r =>
      cases r with
      | ok _ => exact all_plain oserr s me werr ms st'
      | error e => exact ⟨rfl, rfl⟩
    | _ => exact ⟨rfl, rfl⟩

/-! ### why a connection is given up -/

theorem lookup_range (ti : TorInfo) (i : Nat) (h : ti.numPieces ≤ i) : PieceLookupT ti i = .ok (.error .bounds) := by
  unfold PieceLookupT
  rw [if_neg (by omega), if_pos (by omega)]

/-- what handling a request does, in all cases -/
theorem handleRequestT_spec {pl : Nat} {hashes : Bytes} {files : List EntryBase} {cs : List Bytes} {s : Swarm} {st : St}
    (h : Running pl hashes files cs s st.buf) (oserr : Bytes → Bytes) (i b l : UInt32) (werr : Option Bytes) :
    (handleRequestT oserr s i b l werr st).2 =
      if i.toNat < s.tor.numPieces then
        if s.bf.Get i.toNat = .ok true then
          if b.toNat + l.toNat ≤ pl then match werr with
            | none => .ok (.ok ())
            | some t => .ok (.error (.os t))
          else .panic
        else .ok (.ok ())
      else if s.bf.Complete then .ok (.error .bounds)
      else if i.toNat < 8 * s.bf.data.length then (if Bits.bit s.bf.data i.toNat then .ok (.error .bounds) else .ok (.ok ()))
      else .panic := by
  have hp := (requestK_plain oserr s i b l werr st).2
  rw [handleRequest_spec h] at hp
  by_cases hi : i.toNat < s.tor.numPieces
  · rw [if_pos hi] at hp ⊢
    by_cases hg : s.bf.Get i.toNat = .ok true
    · rw [if_pos hg] at hp ⊢
      by_cases hb : b.toNat + l.toNat ≤ pl
      · rw [if_pos hb] at hp ⊢
        have hms : mayServe s i.toNat = .ok true := by unfold mayServe; rw [hg]; split <;> rfl
        have hrd := C26_read pl hashes files s.tor h.accepted s.fs cs h.stored i.toNat hi st.buf (by rw [pieceOf_length, h.buf]; omega)
        rw [← h.fio, ← readPiece_plain oserr] at hrd
        unfold handleRequestT at hp ⊢
        rw [hms] at hp ⊢
        cases hr : ReadPieceT oserr s.fs s.fio i.toNat st.buf with
        | ok r =>
          rw [hr] at hrd hp
          cases r with
          | error e => simp only [plainK] at hrd; cases hrd
          | ok x =>
            obtain ⟨n, buf⟩ := x
            simp only [plainK] at hrd
            cases hrd
            have ha := answer_spec (filled pl cs i.toNat st.buf) i b l pl h.small (filled_length pl cs _ _ h.buf)
            rw [if_pos hb] at ha
            unfold filled at ha
            dsimp only
            rw [ha]
            cases werr <;> rfl
        | _ => rw [hr] at hrd; cases hrd
      · rw [if_neg hb] at hp ⊢
        revert hp
        cases (handleRequestT oserr s i b l werr st).2 with
        | ok r => cases r <;> exact fun hp => by cases hp
        | panic => exact fun _ => rfl
        | _ => exact fun hp => by cases hp
    · rw [if_neg hg] at hp ⊢
      revert hp
      cases (handleRequestT oserr s i b l werr st).2 with
      | ok r =>
        cases r with
        | ok _ => exact fun _ => rfl
        | error _ => exact fun hp => by cases hp
      | _ => exact fun hp => by cases hp
  · rw [if_neg hi]
    have hl := lookup_range s.tor i.toNat (by omega)
    have hr : ReadPieceT oserr s.fs s.fio i.toNat st.buf = .ok (.error .bounds) := by
      unfold ReadPieceT
      rw [h.fio, show (openedAll s.tor).torInfo = s.tor from rfl, hl]; rfl
    unfold handleRequestT mayServe
    by_cases hc : s.bf.Complete = true
    · rw [if_pos hc, if_pos hc]
      dsimp only
      rw [hr]
    · rw [if_neg hc, if_neg hc, get_nat]
      by_cases h8 : i.toNat < 8 * s.bf.data.length
      · rw [if_pos h8, if_pos h8]
        cases hb : Bits.bit s.bf.data i.toNat with
        | false => rfl
        | true => dsimp only; rw [hr]; rfl
      · rw [if_neg h8, if_neg h8]

theorem running_one {pl : Nat} {hashes : Bytes} {files : List EntryBase} {cs : List Bytes} {s : Swarm} {st : St}
    (h : Running pl hashes files cs s st.buf) (me : PH) (wok : Nat → Bool) (m : P2P.Msg) : Running pl hashes files cs s (handleOne s me wok m st).1.buf := by
  refine ⟨h.accepted, h.small, h.fio, h.stored, h.bf, h.nbits, ?_⟩
  cases m with
  | request i b l =>
    show (handleRequest s i b l (wok st.out.length) st).1.buf.length = pl
    rw [handleRequest_spec h]
    have hf := filled_length pl cs i.toNat st.buf h.buf
    have hb := h.buf
    repeat' split
    all_goals first | exact hf | exact hb
  | bitfield n b =>
    show (handleBitfield s me b st).1.buf.length = pl
    unfold handleBitfield
    split
    · exact h.buf
    · cases b.SetNbits s.tor.numPieces with
      | ok b' =>
        dsimp only
        cases RegisterBF st.ppt me b' <;> exact h.buf
      | _ => exact h.buf
  | _ => exact h.buf

theorem readPieceT_noErr (oserr : Bytes → Bytes) (fs : FS.State) (fio : FileIO) (i : Int) (buf : Bytes) (e : Err) : ReadPieceT oserr fs fio i buf ≠ .err e := by
  have loop : ∀ (ls : List PieceLocation) (off : Nat) (b : Bytes) (e : Err), readLoopT oserr fs fio ls off b ≠ .err e := by
    intro ls
    induction ls with
    | nil => intro off b e hc; cases hc
    | cons l ls ih =>
      intro off b e
      unfold readLoopT
      split
      · exact fun hc => by cases hc
      · split
        · exact fun hc => by cases hc
        · split
          · split
            · exact fun hc => by cases hc
            · split
              · exact fun hc => by cases hc
              · split
                · exact fun hc => by cases hc
                · exact ih _ _ _
          · exact fun hc => by cases hc
  unfold ReadPieceT PieceLookupT
  split
  · exact fun hc => by cases hc
  · split
    · exact fun hc => by cases hc
    · cases fio.torInfo.pm[i.toNat]? with
      | none => exact fun hc => by cases hc
      | some ls => exact loop ls 0 buf e

end Verif.MsgErr
