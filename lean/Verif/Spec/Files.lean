import Verif.Model.Files
/-
  The content of a torrent as one byte string.
-/
namespace Gotit.Spec
open Gotit

/-- The first `n` bytes of a file; bytes that were never written read as zero. -/
def stored (n : Nat) (c : Bytes) : Bytes := c.take n ++ List.replicate (n - c.length) 0

/-- The files of a torrent with their declared lengths, in order. -/
def extents (t : Torrent) : List (Nat × Bytes) :=
  if t.isDirectory then (t.files.zip t.osFiles).map (fun (f, p) => (f.length.toNat, p))
  else t.osFiles.map (fun p => (t.length.toNat, p))

/-- All files one after the other, each with its declared length. -/
def layout (disk : Disk) (fs : List (Nat × Bytes)) : Bytes := fs.flatMap (fun x => stored x.1 (disk x.2))

/-- The total declared length. -/
def total (fs : List (Nat × Bytes)) : Nat := (fs.map (·.1)).sum

/-- `v` with the bytes from position `pos` on replaced by `d`. -/
def splice (v : Bytes) (pos : Nat) (d : Bytes) : Bytes := v.take pos ++ (d ++ v.drop (pos + d.length))

/-- No file is longer than declared. -/
def WithinLengths (disk : Disk) (fs : List (Nat × Bytes)) : Prop := ∀ x ∈ fs, (disk x.2).length ≤ x.1

/-- Only the torrent's own files differ. -/
def OnlyTouches (fs : List (Nat × Bytes)) (before after : Disk) : Prop := ∀ p, p ∉ fs.map (·.2) → after p = before p

end Gotit.Spec
