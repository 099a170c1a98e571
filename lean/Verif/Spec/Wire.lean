import Verif.Model.Go
/-
  The peer wire protocol (BEP 3) as the other side of the connection reads it.
-/
namespace Gotit.Spec
open Gotit

/-- The number written in bytes, most significant first. -/
def bigEndian : Bytes → Nat
  | [] => 0
  | b :: bs => b.toNat * 256 ^ bs.length + bigEndian bs

/-- A frame: four length bytes (most significant first), then exactly that many bytes. -/
def Framed (w : Bytes) : Prop :=
  ∃ hdr body, w = hdr ++ body ∧ hdr.length = 4 ∧ bigEndian hdr = body.length

/-- What a remote peer that follows BEP 3 understands. -/
inductive Heard where
  | keepalive
  | signal (id : UInt8)
  | have (index : Nat)
  | request (index begin_ length : Nat)
  | cancel (index begin_ length : Nat)
  | piece (index begin_ : Nat) (block : Bytes)
  | bitfield (bits : Bytes)
  | unknown
  deriving DecidableEq

/-- The number in bytes `i … i+3`. -/
def num4 (b : Bytes) (i : Nat) : Nat := bigEndian ((b.drop i).take 4)

/-- BEP 3 decoding of a frame body. -/
def hear : Bytes → Heard
  | [] => .keepalive
  | id :: p =>
    if id.toNat ≤ 3 then (if p = [] then .signal id else .unknown)
    else if id = 4 then (if p.length = 4 then .have (num4 p 0) else .unknown)
    else if id = 5 then .bitfield p
    else if id = 6 then (if p.length = 12 then .request (num4 p 0) (num4 p 4) (num4 p 8) else .unknown)
    else if id = 7 then (if 8 ≤ p.length then .piece (num4 p 0) (num4 p 4) (p.drop 8) else .unknown)
    else if id = 8 then (if p.length = 12 then .cancel (num4 p 0) (num4 p 4) (num4 p 8) else .unknown)
    else .unknown

/-- What a remote peer understands from the bytes on the wire, if they are one frame. -/
def hearWire (w : Bytes) : Heard :=
  if w.length < 4 ∨ bigEndian (w.take 4) ≠ (w.drop 4).length then .unknown else hear (w.drop 4)

/-- Bit `i` of a wire bitfield: the most significant bit of the first byte is piece 0. -/
def wireBit (bits : Bytes) (i : Nat) : Bool :=
  match bits[i / 8]? with
  | some b => b.toNat.testBit (7 - i % 8)
  | none => false

end Gotit.Spec
