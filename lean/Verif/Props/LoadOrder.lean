import Verif.Lemmas.LoadOrder
/-
Property C105, exactly: the first thing that is wrong with a torrent file (/repo/src/torrent/torrent.go:70-111, info/info.go:196-247, filesd/entrybase.go:54-91).
-/
set_option autoImplicit false

namespace Verif.LoadText
open Verif.Bencode Verif.Info

/-- **C105**, exact: for a torrent file with sensible numbers an error with the text `t` is returned precisely if `t` is what is to be said about the first thing that is wrong with
it, in the order `announce`, `info`, `name`, `piece length`, `pieces`, the files one by one, the hashes.  (A path with no elements, and hashes that end within a file, stop the
program: C35.) -/
theorem C105_exact (H : Bytes → Bytes) (osErr data sp wd addr t : Bytes) (top : Dict) (hd : Decode data sp = .ok (.dict top)) (hs : Sensible top) :
    (∃ w, FromTorrentFileT H osErr (some data) sp wd = .err w ∧ w.text addr = t) ↔
    BadTorrent (fun u => errorf (ascii "file entry contains invalid path [" ++ fmtV u ++ ascii "]")) addr top t :=
  load_iff H osErr data sp wd addr t top hd hs

/-- an instance: `announce` is there, but not `info`; the numbers are sensible as there are none -/
example : Decode (ascii "d8:announce1:ae") [] = .ok (.dict [(ascii "announce", .str (ascii "a"))]) ∧ Sensible [(ascii "announce", .str (ascii "a"))] ∧
    BadTorrent (fun _ => []) (ascii "0xc0") [(ascii "announce", .str (ascii "a"))] (missingText (ascii "0xc0") (ascii "info")) := by
  refine ⟨by decide +kernel, ?_, .info (ascii "a") _ rfl (.missing ?_)⟩
  · intro info pl ns h
    exact absurd h (by unfold Has; rw [show List.lookup (ascii "info") [(ascii "announce", Value.str (ascii "a"))] = none by decide +kernel]; simp)
  · intro v h
    exact absurd h (by unfold Has; rw [show List.lookup (ascii "info") [(ascii "announce", Value.str (ascii "a"))] = none by decide +kernel]; simp)

/-- an instance: hashes for 4 of 7 bytes, which end at the end of a file -/
example (shown : Value → Bytes) (addr : Bytes) : BadInfo shown addr [(ascii "name", .str (ascii "n")), (ascii "piece length", .int64 4), (ascii "pieces", .str (List.replicate 20 7)),
    (ascii "files", .list [fileInfo (4, [ascii "x"]), fileInfo (3, [ascii "y"])])] (ascii "only accounted for 4/7 bytes") := by
  have hl : LengthsOf [(ascii "name", .str (ascii "n")), (ascii "piece length", .int64 4), (ascii "pieces", .str (List.replicate 20 7)),
      (ascii "files", .list [fileInfo (4, [ascii "x"]), fileInfo (3, [ascii "y"])])] ([4] ++ [3]) :=
    .inr ⟨rfl, _, rfl, .cons _ _ (4, [ascii "x"]) _ ⟨_, rfl, rfl, rfl⟩ (by simp) (.cons _ _ (3, [ascii "y"]) _ ⟨_, rfl, rfl, rfl⟩ (by simp) .nil)⟩
  exact .counted (ascii "n") 4 (List.replicate 20 7) 1 [4] [3] rfl rfl rfl hl rfl rfl (by decide)

end Verif.LoadText
