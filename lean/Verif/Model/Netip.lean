import Verif.Model.HttpTracker
/-
  `netip.ParseAddr`, as called in http_tracker.go:144, and `netip.AddrPort.String`, whose text is the key of the peer pool
  (manager.go:220, 224) and the address that is dialled (peer.go:124). (Go standard library, net/netip/netip.go. Its source was not
  at hand: modelled from general knowledge of it, unchecked against the code.) The other models take them as arbitrary functions.
-/
namespace Gotit

/-- The loop of `parseIPv4`: the fields read before, the value and the number of digits of the current one. `digLen = 0` at the
beginning and after a dot, so it stands for the tests `i == 0` and `s[i-1] == '.'`. -/
def parseIPv4Loop : Bytes → (fields : List UInt8) → (val digLen : Nat) → Option (List UInt8)
  | [], fields, val, _ => if fields.length < 3 then none else some (fields ++ [UInt8.ofNat val])
  | c :: cs, fields, val, digLen =>
    if 48 ≤ c ∧ c ≤ 57 then
      if digLen = 1 ∧ val = 0 then none
      else if val * 10 + (c.toNat - 48) > 255 then none
      else parseIPv4Loop cs fields (val * 10 + (c.toNat - 48)) (digLen + 1)
    else if c = 46 then
      if digLen = 0 ∨ cs = [] then none
      else if fields.length = 3 then none
      else parseIPv4Loop cs (fields ++ [UInt8.ofNat val]) 0 0
    else none

/-- `parseIPv4`: the four bytes. -/
def parseIPv4 (s : Bytes) : Option (List UInt8) := parseIPv4Loop s [] 0 0

/-- The value of a hexadecimal digit, in either case. -/
def hexDigitVal (c : UInt8) : Option Nat :=
  if 48 ≤ c ∧ c ≤ 57 then some (c.toNat - 48)
  else if 97 ≤ c ∧ c ≤ 102 then some (c.toNat - 97 + 10)
  else if 65 ≤ c ∧ c ≤ 70 then some (c.toNat - 65 + 10)
  else none

/-- The inner loop of `parseIPv6`, over the digits of one field: `off` of them were read with the value `acc`. The value, the number of
digits and the rest; `none` if there are more than four digits. (The test for a value beyond 16 bits never fires before that.) -/
def hexField : Bytes → (off acc : Nat) → Option (Nat × Nat × Bytes)
  | [], off, acc => some (acc, off, [])
  | c :: cs, off, acc =>
    match hexDigitVal c with
    | none => some (acc, off, c :: cs)
    | some d => if off > 3 then none else hexField cs (off + 1) (acc * 16 + d)

/-- The loop of `parseIPv6` (`ip` is what was read, so `i` is its length; two bytes in each round, so `rounds` more fit). The bytes and the
position of the ellipsis. -/
def parseIPv6Loop : (rounds : Nat) → (s ip : Bytes) → (ellipsis : Option Nat) → Option (Bytes × Option Nat)
  | 0, s, ip, ell => if s = [] then some (ip, ell) else none
  | rounds + 1, s, ip, ell =>
    match hexField s 0 0 with
    | none => none
    | some (_, 0, _) => none
    | some (acc, _, rest) =>
      if rest.head? = some 46 then
        if ell = none ∧ ip.length ≠ 12 then none
        else if ip.length + 4 > 16 then none
        else
          match parseIPv4 s with
          | none => none
          | some b => some (ip ++ b, ell)
      else
        let ip := ip ++ [UInt8.ofNat (acc / 256), UInt8.ofNat acc]
        match rest with
        | [] => some (ip, ell)
        | c :: rest =>
          if c ≠ 58 then none
          else
            match rest with
            | [] => none
            | d :: more =>
              if d = 58 then
                if ell ≠ none then none
                else if more = [] then some (ip, some ip.length)
                else parseIPv6Loop rounds more ip (some ip.length)
              else parseIPv6Loop rounds (d :: more) ip ell

/-- The end of `parseIPv6`: the ellipsis is expanded. -/
def expandEllipsis : Option (Bytes × Option Nat) → Option Bytes
  | none => none
  | some (ip, none) => if ip.length < 16 then none else some ip
  | some (ip, some e) => if ip.length < 16 then some (ip.take e ++ List.replicate (16 - ip.length) 0 ++ ip.drop e) else none

/-- `parseIPv6` without the zone. -/
def parseIPv6Bytes (s : Bytes) : Option Bytes :=
  match s with
  | 58 :: 58 :: rest => if rest = [] then some (List.replicate 16 0) else expandEllipsis (parseIPv6Loop 8 rest [] (some 0))
  | s => expandEllipsis (parseIPv6Loop 8 s [] none)

/-- `parseIPv6`. -/
def parseIPv6 (s : Bytes) : Option Addr :=
  match s.dropWhile (· ≠ 37) with
  | [] => (parseIPv6Bytes s).map (.v6 · [])
  | _ :: zone => if zone = [] then none else (parseIPv6Bytes (s.takeWhile (· ≠ 37))).map (.v6 · zone)

/-- `netip.ParseAddr`: the first dot, colon or percent sign decides. -/
def netipParse (s : Bytes) : Option Addr :=
  match (s.find? fun c => c = 46 || c = 58 || c = 37) with
  | none => none
  | some c =>
    if c = 46 then
      match parseIPv4 s with
      | some [a, b, c, d] => some (.v4 a b c d)
      | _ => none
    else if c = 58 then parseIPv6 s
    else none

/-- A hexadecimal digit, `digits[n]`. -/
def hexDigit (n : Nat) : UInt8 := UInt8.ofNat (if n < 10 then 48 + n else 87 + n)

/-- `appendHex` of a 16-bit number: no leading zeros. -/
def appendHex (x : Nat) : Bytes :=
  (if x ≥ 0x1000 then [hexDigit (x / 4096)] else []) ++ (if x ≥ 0x100 then [hexDigit (x / 256 % 16)] else []) ++
  (if x ≥ 0x10 then [hexDigit (x / 16 % 16)] else []) ++ [hexDigit (x % 16)]

/-- `v6u16`: the groups of an IPv6 address. -/
def groupAt (b : Bytes) (i : Nat) : Nat := (byteAt b (2 * i)).toNat * 256 + (byteAt b (2 * i + 1)).toNat

/-- How many groups from number `i` on are zero, at most `n`. -/
def zerosFrom (b : Bytes) : (n i : Nat) → Nat
  | 0, _ => 0
  | n + 1, i => if groupAt b i = 0 then zerosFrom b n (i + 1) + 1 else 0

/-- The first loop of `appendTo6`: the longest run of at least two zero groups, the first if there are several; (255, 255) if there
is none. -/
def zeroRun (b : Bytes) : Nat × Nat :=
  (List.range 8).foldl (fun best i =>
    let l := zerosFrom b (8 - i) i
    if l ≥ 2 ∧ l > best.2 - best.1 then (i, i + l) else best) (255, 255)

/-- The second loop of `appendTo6`, from group number `i` on, in at most `n` rounds. -/
def groupsText (b : Bytes) (zs ze : Nat) : (n i : Nat) → Bytes
  | 0, _ => []
  | n + 1, i =>
    if i ≥ 8 then []
    else if i = zs then
      if ze ≥ 8 then [58, 58] else [58, 58] ++ appendHex (groupAt b ze) ++ groupsText b zs ze n (ze + 1)
    else (if i > 0 then [58] else []) ++ appendHex (groupAt b i) ++ groupsText b zs ze n (i + 1)

/-- `appendTo4`. -/
def text4 (a b c d : UInt8) : Bytes :=
  natDigits a.toNat ++ 46 :: natDigits b.toNat ++ 46 :: natDigits c.toNat ++ 46 :: natDigits d.toNat

/-- `Is4In6`: ten zero bytes, then two bytes 255. -/
def is4In6 (b : Bytes) : Bool := b.take 12 = List.replicate 10 0 ++ [255, 255]

/-- `appendTo6` and `appendTo4In6` without the zone. -/
def text6 (b : Bytes) : Bytes :=
  if is4In6 b then ascii "::ffff:" ++ text4 (byteAt b 12) (byteAt b 13) (byteAt b 14) (byteAt b 15)
  else groupsText b (zeroRun b).1 (zeroRun b).2 8 0

/-- `Addr.String`. -/
def addrText : Addr → Bytes
  | .v4 a b c d => text4 a b c d
  | .v6 b z => text6 b ++ (if z = [] then [] else 37 :: z)

/-- `AddrPort.String`. -/
def addrPortText (a : AddrPort) : Bytes :=
  match a.addr with
  | none => ascii "invalid AddrPort"
  | some (.v4 w x y z) => text4 w x y z ++ 58 :: natDigits a.port
  | some (.v6 b z) => 91 :: addrText (.v6 b z) ++ 93 :: 58 :: natDigits a.port

end Gotit
