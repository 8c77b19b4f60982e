import Verif.Spec.Avail
import Verif.Spec.Bits
import Verif.Spec.Framing
import Verif.Spec.Layout
/-
Specification for C66: everything a client that only seeds does with the buffers received from a peer, whatever is in them.
-/
set_option autoImplicit false

namespace Verif.Seeder
open Verif.Wire Verif.Layout Verif.Framing Verif.Bits

/-- how handling something ends -/
inductive Outcome where
  | fine
  | error
  | crash
  | stuck
  deriving DecidableEq

/-- a peer cannot be registered for a piece that has 63 peers already, if it is not one of them -/
def full (a : Avail.State) (who : Bytes) (i : Nat) : Bool := !(a i).contains who && decide (63 ≤ (a i).length)

/-- what is answered to a message, the buffer for pieces afterwards, and how it ends.  `content` are the bytes of the torrent in pieces of `pl` bytes, `n` the number of
pieces, `have_` the bits that are set in our bitfield (which is as long as a whole number of bytes), `old` what is in the buffer for pieces; `ok` tells whether a message can be sent, `fl` for
which pieces the peer cannot be registered. -/
def serveOne (content : Bytes) (pl n : Nat) (have_ fl : Nat → Bool) (ok : Bool) (old : Bytes) : Msg → List Msg × Bytes × Outcome
  | .request i b l =>
    if i.toNat < n then
      if have_ i.toNat then
        let new := pieceOf content pl i.toNat ++ old.drop (pieceOf content pl i.toNat).length
        if b.toNat + l.toNat ≤ pl then
          if ok then ([.piece i b (range new b.toNat l.toNat)], new, .fine) else ([], new, .error)
        else ([], new, .crash)
      else ([], old, .fine)
    else if (List.range n).all have_ then ([], old, .error)
    else if i.toNat < (n + 7) / 8 * 8 then ([], old, if have_ i.toNat then .error else .fine)
    else ([], old, .crash)
  | .bitfield bits => ([], old, if bits.length ≠ (n + 7) / 8 then .error else if (List.range n).any (fun i => bit bits i && fl i) then .crash else .fine)
  | _ => ([], old, .fine)

/-- the messages of a buffer, until one of them ends it; `k` is the number of messages sent before, `ok k` tells whether the next one can be sent -/
def serve (content : Bytes) (pl n : Nat) (have_ fl ok : Nat → Bool) : Nat → Bytes → List Msg → List Msg × Bytes × Outcome
  | _, old, [] => ([], old, .fine)
  | k, old, w :: ws =>
    match serveOne content pl n have_ fl (ok k) old w with
    | (out, new, .fine) => (out ++ (serve content pl n have_ fl ok (k + out.length) new ws).1, (serve content pl n have_ fl ok (k + out.length) new ws).2)
    | r => r

/-- `Talk content pl n have_ fl ok k old bufs sent o`: if the buffers `bufs` are received, the messages `sent` are sent, and it ends with `o` -/
inductive Talk (content : Bytes) (pl n : Nat) (have_ fl ok : Nat → Bool) : Nat → Bytes → List Bytes → List Msg → Outcome → Prop where
  | nil (k : Nat) (old : Bytes) : Talk content pl n have_ fl ok k old [] [] .fine
  | crash (k : Nat) (old b : Bytes) (bs : List Bytes) (ws : List Msg) (h : Reads b ws .crash) : Talk content pl n have_ fl ok k old (b :: bs) [] .crash
  | stuck (k : Nat) (old b : Bytes) (bs : List Bytes) (ws : List Msg) (h : Reads b ws .stuck) : Talk content pl n have_ fl ok k old (b :: bs) [] .stuck
  | last (k : Nat) (old b : Bytes) (bs : List Bytes) (ws : List Msg) (h : Reads b ws .normal) (out : List Msg) (new : Bytes) (o : Outcome)
      (hs : serve content pl n have_ fl ok k old ws = (out, new, o)) (ho : o ≠ .fine) : Talk content pl n have_ fl ok k old (b :: bs) out o
  | more (k : Nat) (old b : Bytes) (bs : List Bytes) (ws : List Msg) (h : Reads b ws .normal) (out : List Msg) (new : Bytes)
      (hs : serve content pl n have_ fl ok k old ws = (out, new, .fine)) (out' : List Msg) (o : Outcome)
      (ht : Talk content pl n have_ fl ok (k + out.length) new bs out' o) : Talk content pl n have_ fl ok k old (b :: bs) (out ++ out') o

end Verif.Seeder
