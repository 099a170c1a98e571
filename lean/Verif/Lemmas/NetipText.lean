import Verif.Lemmas.Netip
/-
  `Addr.String` and `AddrPort.String`: the texts they give, and that different addresses have different texts.
-/
namespace Gotit
open Spec

theorem hexDigit_val {n : Nat} (h : n < 16) : hexDigitVal (hexDigit n) = some n := by
  rw [hexDigitVal_iff]
  unfold hexDigit
  split
  · exact .digit (by omega)
  · exact .lower (by omega) h

theorem appendHex_group (hi lo : UInt8) : Group (appendHex (hi.toNat * 256 + lo.toNat)) [hi, lo] := by
  have h1 := hi.toNat_lt
  have h2 := lo.toNat_lt
  generalize hx : hi.toNat * 256 + lo.toNat = x
  have hn : hexNum 0 (appendHex x) = some x := by
    unfold appendHex
    by_cases a : x ≥ 0x1000
    · rw [if_pos a, if_pos (by omega), if_pos (by omega)]
      simp only [List.singleton_append, List.cons_append, List.nil_append, hexNum, hexDigit_val (show x / 4096 < 16 by omega),
        hexDigit_val (show x / 256 % 16 < 16 by omega), hexDigit_val (show x / 16 % 16 < 16 by omega), hexDigit_val (show x % 16 < 16 by omega)]
      congr 1; omega
    · rw [if_neg a]
      by_cases b : x ≥ 0x100
      · rw [if_pos b, if_pos (by omega)]
        simp only [List.singleton_append, List.cons_append, List.nil_append, hexNum,
          hexDigit_val (show x / 256 % 16 < 16 by omega), hexDigit_val (show x / 16 % 16 < 16 by omega), hexDigit_val (show x % 16 < 16 by omega)]
        congr 1; omega
      · rw [if_neg b]
        by_cases c : x ≥ 0x10
        · rw [if_pos c]
          simp only [List.singleton_append, List.nil_append, hexNum,
            hexDigit_val (show x / 16 % 16 < 16 by omega), hexDigit_val (show x % 16 < 16 by omega)]
          congr 1; omega
        · rw [if_neg c]
          simp only [List.nil_append, hexNum, hexDigit_val (show x % 16 < 16 by omega)]
          congr 1; omega
  have hl : 1 ≤ (appendHex x).length ∧ (appendHex x).length ≤ 4 := by
    unfold appendHex
    split <;> split <;> split <;> simp
  have := group_of hl.1 hl.2 hn
  have e1 : UInt8.ofNat (x / 256) = hi := by apply UInt8.toNat_inj.1; rw [UInt8.toNat_ofNat']; omega
  have e2 : UInt8.ofNat x = lo := by apply UInt8.toNat_inj.1; rw [UInt8.toNat_ofNat']; omega
  rw [e1, e2] at this
  exact this

theorem natDigits_octet (n : UInt8) : Octet (natDigits n.toNat) n := by
  have hn := n.toNat_lt
  obtain ⟨h1, h2⟩ := natDigits_spec n.toNat
  refine ⟨?_, ?_, ?_, ?_⟩
  · rw [natDigits]; split <;> simp
  · intro c hc
    have := h1 c hc
    simp only [UInt8.le_iff_toNat_le]
    exact ⟨this.1, this.2⟩
  · intro h
    have head : ∀ m : Nat, (natDigits m).head? = some 48 → m = 0 := by
      intro m
      induction m using Nat.strongRecOn with
      | ind m ih =>
        intro h
        rw [natDigits] at h
        split at h
        · rename_i hm
          simp only [List.head?_cons, Option.some.injEq] at h
          have := congrArg UInt8.toNat h
          rw [UInt8.toNat_ofNat_of_lt' (by simp [UInt8.size]; omega)] at this
          simp at this; omega
        · have hne : natDigits (m / 10) ≠ [] := by rw [natDigits]; split <;> simp
          have := ih (m / 10) (by omega) (by rw [List.head?_append] at h; cases hh : (natDigits (m / 10)).head? with
            | none => exact absurd (List.head?_eq_none_iff.1 hh) hne
            | some x => simpa [hh] using h)
          omega
    rw [head _ h, natDigits]; rfl
  · exact h2

theorem text4_quad (a b c d : UInt8) : Quad (text4 a b c d) [a, b, c, d] :=
  ⟨_, _, _, _, a, b, c, d, by simp [text4, List.append_assoc], rfl, natDigits_octet a, natDigits_octet b, natDigits_octet c, natDigits_octet d⟩

/-- The bytes of the groups from `i` on, `k` of them. -/
def pairs (b : Bytes) : (i k : Nat) → Bytes
  | _, 0 => []
  | i, k + 1 => [byteAt b (2 * i), byteAt b (2 * i + 1)] ++ pairs b (i + 1) k

theorem pairs_append (b : Bytes) (m : Nat) : ∀ (k i : Nat), pairs b i (k + m) = pairs b i k ++ pairs b (i + k) m := by
  intro k
  induction k with
  | zero => intro i; simp [pairs]
  | succ k ih =>
    intro i
    rw [show k + 1 + m = (k + m) + 1 by omega]
    simp only [pairs, ih, List.append_assoc]
    rw [show i + 1 + k = i + (k + 1) by omega]

theorem pairs_length (b : Bytes) : ∀ (k i : Nat), (pairs b i k).length = 2 * k := by
  intro k
  induction k with
  | zero => intro i; rfl
  | succ k ih => intro i; simp [pairs, ih]; omega

theorem pairs_all (b : Bytes) (h : b.length = 16) : pairs b 0 8 = b := by
  match b, h with
  | [_, _, _, _, _, _, _, _, _, _, _, _, _, _, _, _], _ => rfl

theorem pairs_zero (b : Bytes) : ∀ (k i : Nat), (∀ j, i ≤ j → j < i + k → groupAt b j = 0) → pairs b i k = List.replicate (2 * k) 0 := by
  intro k
  induction k with
  | zero => intro i _; rfl
  | succ k ih =>
    intro i h
    have h0 := h i (by omega) (by omega)
    unfold groupAt at h0
    have e1 : byteAt b (2 * i) = 0 := by apply UInt8.toNat_inj.1; simp; omega
    have e2 : byteAt b (2 * i + 1) = 0 := by apply UInt8.toNat_inj.1; simp; omega
    rw [pairs, ih (i + 1) (fun j h1 h2 => h j (by omega) (by omega)), e1, e2, show 2 * (k + 1) = 2 * k + 2 by omega]
    simp [List.replicate_succ]

/-- A colon and a group, for the groups from `i` on, `k` of them. -/
def colons (b : Bytes) : (i k : Nat) → Bytes
  | _, 0 => []
  | i, k + 1 => [58] ++ appendHex (groupAt b i) ++ colons b (i + 1) k

theorem groups_colons (b : Bytes) : ∀ (k i : Nat), Groups (appendHex (groupAt b i) ++ colons b (i + 1) k) (pairs b i (k + 1)) := by
  intro k
  induction k with
  | zero => intro i; simp only [colons, List.append_nil, pairs]; exact .one (appendHex_group _ _)
  | succ k ih =>
    intro i
    have := Groups.more (appendHex_group (byteAt b (2 * i)) (byteAt b (2 * i + 1))) (ih (i + 1))
    rw [pairs, colons]
    simpa [List.append_assoc, groupAt] using this

/-- The loop behind the run of zeros, or without one. -/
theorem groupsText_after (b : Bytes) (zs ze : Nat) : ∀ (k n i : Nat), 0 < i → (zs < i ∨ 8 ≤ zs) → i + k = 8 → k ≤ n →
    groupsText b zs ze n i = colons b i k := by
  intro k
  induction k with
  | zero =>
    intro n i h0 _ h _
    cases n with
    | zero => rfl
    | succ n => rw [groupsText, if_pos (by omega)]; rfl
  | succ k ih =>
    intro n i h0 hz h hn
    match n, hn with
    | n + 1, hn =>
      rw [groupsText, if_neg (by omega), if_neg (by omega), if_pos h0, ih n (i + 1) (by omega) (by omega) (by omega) (by omega)]
      rfl

theorem groupsText_run (b : Bytes) (zs ze : Nat) : ∀ (k n i : Nat), 0 < i → i + k = zs → zs < 8 → k + 1 ≤ n →
    groupsText b zs ze n i = colons b i k ++ groupsText b zs ze (n - k) zs := by
  intro k
  induction k with
  | zero => intro n i _ h _ _; rw [show i = zs by omega]; rfl
  | succ k ih =>
    intro n i h0 h h8 hn
    match n, hn with
    | n + 1, hn =>
      rw [groupsText, if_neg (by omega), if_neg (by omega), if_pos h0, ih n (i + 1) (by omega) (by omega) h8 (by omega)]
      rw [show n + 1 - (k + 1) = n - k by omega]
      simp [colons, List.append_assoc]

theorem zerosFrom_spec (b : Bytes) : ∀ (n i : Nat), zerosFrom b n i ≤ n ∧ ∀ j, i ≤ j → j < i + zerosFrom b n i → groupAt b j = 0 := by
  intro n
  induction n with
  | zero => intro i; exact ⟨Nat.le_refl 0, fun j h1 h2 => by simp [zerosFrom] at h2; omega⟩
  | succ n ih =>
    intro i
    simp only [zerosFrom]
    split
    · rename_i h0
      obtain ⟨h1, h2⟩ := ih (i + 1)
      refine ⟨by omega, fun j hj hj' => ?_⟩
      by_cases he : j = i
      · rw [he]; exact h0
      · exact h2 j (by omega) (by omega)
    · exact ⟨by omega, fun j h1 h2 => by omega⟩

theorem zeroRun_spec (b : Bytes) : zeroRun b = (255, 255) ∨
    ((zeroRun b).1 + 2 ≤ (zeroRun b).2 ∧ (zeroRun b).2 ≤ 8 ∧ ∀ j, (zeroRun b).1 ≤ j → j < (zeroRun b).2 → groupAt b j = 0) := by
  have go : ∀ (l : List Nat) (best : Nat × Nat), (∀ i ∈ l, i < 8) →
      (best = (255, 255) ∨ (best.1 + 2 ≤ best.2 ∧ best.2 ≤ 8 ∧ ∀ j, best.1 ≤ j → j < best.2 → groupAt b j = 0)) →
      let r := l.foldl (fun best i =>
        let l := zerosFrom b (8 - i) i
        if l ≥ 2 ∧ l > best.2 - best.1 then (i, i + l) else best) best
      r = (255, 255) ∨ (r.1 + 2 ≤ r.2 ∧ r.2 ≤ 8 ∧ ∀ j, r.1 ≤ j → j < r.2 → groupAt b j = 0) := by
    intro l
    induction l with
    | nil => intro best _ h; exact h
    | cons i l ih =>
      intro best hl h
      simp only [List.foldl_cons]
      apply ih _ (fun j hj => hl j (by simp [hj]))
      have hi := hl i (by simp)
      obtain ⟨h1, h2⟩ := zerosFrom_spec b (8 - i) i
      split
      · rename_i hc
        exact .inr ⟨by simp; omega, by simp; omega, fun j hj hj' => h2 j hj hj'⟩
      · exact h
  exact go (List.range 8) (255, 255) (fun i hi => List.mem_range.1 hi) (.inl rfl)

theorem text6_six (b : Bytes) (h : b.length = 16) : Six (text6 b) b := by
  unfold text6
  split
  · rename_i h4
    unfold is4In6 at h4
    simp only [decide_eq_true_eq] at h4
    have hq := text4_quad (byteAt b 12) (byteAt b 13) (byteAt b 14) (byteAt b 15)
    have hg : Group (ascii "ffff") [255, 255] := by
      have := appendHex_group 255 255
      rwa [show appendHex ((255 : UInt8).toNat * 256 + (255 : UInt8).toNat) = ascii "ffff" by decide] at this
    have := Six.short (s := []) (b := []) (.inl ⟨rfl, rfl⟩) (.inr (Tail.more hg (.quad hq))) (z := 10) (by decide) (by simp)
    have e1 : [] ++ [58, 58] ++ (ascii "ffff" ++ [58] ++ text4 (byteAt b 12) (byteAt b 13) (byteAt b 14) (byteAt b 15))
        = ascii "::ffff:" ++ text4 (byteAt b 12) (byteAt b 13) (byteAt b 14) (byteAt b 15) := rfl
    have e2 : ([] : Bytes) ++ List.replicate 10 0 ++ ([255, 255] ++ [byteAt b 12, byteAt b 13, byteAt b 14, byteAt b 15]) = b := by
      have hd : b = b.take 12 ++ b.drop 12 := (List.take_append_drop 12 b).symm
      rw [h4] at hd
      have hl : b.drop 12 = [byteAt b 12, byteAt b 13, byteAt b 14, byteAt b 15] := by
        clear hd h4 this e1 hg hq
        match b, h with
        | [_, _, _, _, _, _, _, _, _, _, _, _, _, _, _, _], _ => rfl
      rw [hl] at hd
      simpa using hd.symm
    rw [e1, e2] at this
    exact this
  · generalize hz : zeroRun b = r
    have hs := zeroRun_spec b
    rw [hz] at hs
    obtain ⟨zs, ze⟩ := r
    rcases hs with hs | ⟨h1, h2, h3⟩
    · simp only [Prod.mk.injEq] at hs
      obtain ⟨rfl, rfl⟩ := hs
      have e : groupsText b 255 255 8 0 = appendHex (groupAt b 0) ++ colons b 1 7 := by
        rw [groupsText, if_neg (by omega), if_neg (by omega), if_neg (by omega)]
        rw [groupsText_after b 255 255 7 7 1 (by omega) (.inr (by omega)) (by omega) (by omega)]
        rfl
      rw [e]
      have := groups_tail (groups_colons b 7 0)
      rw [pairs_all b h] at this
      exact .full this h
    · simp only at h1 h2 h3 ⊢
      have hzeros := pairs_zero b (ze - zs) zs (fun j hj hj' => h3 j hj (by omega))
      -- the part behind the run
      have hR : ∃ R, (∀ n, 8 - ze ≤ n → groupsText b zs ze (n + 1) zs = [58, 58] ++ R) ∧
          (R = [] ∧ pairs b ze (8 - ze) = [] ∨ Tail R (pairs b ze (8 - ze))) := by
        by_cases h8 : ze = 8
        · subst h8
          refine ⟨[], fun n _ => ?_, .inl ⟨rfl, rfl⟩⟩
          rw [groupsText, if_neg (by omega), if_pos rfl, if_pos (by omega)]; rfl
        · refine ⟨appendHex (groupAt b ze) ++ colons b (ze + 1) (8 - ze - 1), fun n hn => ?_, .inr ?_⟩
          · rw [groupsText, if_neg (by omega), if_pos rfl, if_neg (by omega),
              groupsText_after b zs ze (8 - ze - 1) n (ze + 1) (by omega) (.inl (by omega)) (by omega) (by omega)]
            simp [List.append_assoc]
          · have := groups_tail (groups_colons b (8 - ze - 1) ze)
            rw [show 8 - ze - 1 + 1 = 8 - ze by omega] at this
            exact this
      obtain ⟨R, hR1, hR2⟩ := hR
      have hb : b = pairs b 0 zs ++ List.replicate (2 * (ze - zs)) 0 ++ pairs b ze (8 - ze) := by
        have e1 := pairs_append b (8 - zs) zs 0
        have e2 := pairs_append b (8 - ze) (ze - zs) zs
        rw [show zs + (8 - zs) = 8 by omega, pairs_all b h, Nat.zero_add] at e1
        rw [show ze - zs + (8 - ze) = 8 - zs by omega, hzeros, show zs + (ze - zs) = ze by omega] at e2
        rw [e2] at e1
        rw [List.append_assoc]; exact e1
      have hlen : (pairs b 0 zs).length + 2 * (ze - zs) + (pairs b ze (8 - ze)).length = 16 := by
        rw [pairs_length, pairs_length]; omega
      by_cases h0 : zs = 0
      · have := Six.short (s := []) (b := pairs b 0 zs) (.inl ⟨rfl, by rw [h0]; rfl⟩) hR2 (z := 2 * (ze - zs)) (by omega) hlen
        rw [← hb] at this
        have e := hR1 7 (by omega)
        rw [show (0 : Nat) = zs by omega, e]
        simpa using this
      · have e : groupsText b zs ze 8 0 = appendHex (groupAt b 0) ++ colons b 1 (zs - 1) ++ [58, 58] ++ R := by
          rw [groupsText, if_neg (by omega), if_neg (by omega), if_neg (by omega)]
          rw [groupsText_run b zs ze (zs - 1) 7 1 (by omega) (by omega) (by omega) (by omega)]
          have := hR1 (7 - (zs - 1) - 1) (by omega)
          rw [show 7 - (zs - 1) - 1 + 1 = 7 - (zs - 1) by omega] at this
          rw [this]
          simp [List.append_assoc]
        rw [e]
        have hg := groups_colons b (zs - 1) 0
        rw [show zs - 1 + 1 = zs by omega] at hg
        have := Six.short (.inr hg) hR2 (z := 2 * (ze - zs)) (by omega) hlen
        rw [← hb] at this
        exact this

/-- An address as the program has them: 16 bytes if it is an IPv6 address. -/
def Addr.WellFormed : Addr → Prop
  | .v4 .. => True
  | .v6 b _ => b.length = 16

theorem addrText_means {a : Addr} (h : a.WellFormed) : AddrText (addrText a) a := by
  cases a with
  | v4 w x y z => exact .v4 (text4_quad w x y z)
  | v6 b z =>
    simp only [addrText]
    split
    · rename_i hz; subst hz; rw [List.append_nil]; exact .v6 (text6_six b h)
    · rename_i hz
      have := AddrText.zone (text6_six b h) hz
      rw [List.append_assoc] at this
      exact this

/-- `netip.ParseAddr` reads what `String` writes. -/
theorem netipParse_text {a : Addr} (h : a.WellFormed) : netipParse (addrText a) = some a :=
  (netipParse_iff _ _).2 (addrText_means h)

theorem addrText_inj {a a' : Addr} (h : a.WellFormed) (h' : a'.WellFormed) (e : addrText a = addrText a') : a = a' := by
  have h1 := netipParse_text h
  rw [e, netipParse_text h'] at h1
  exact (Option.some.inj h1).symm

/-- The last colon splits uniquely. -/
theorem last_colon {x y p q : Bytes} (hp : ∀ c ∈ p, c ≠ 58) (hq : ∀ c ∈ q, c ≠ 58) (h : x ++ 58 :: p = y ++ 58 :: q) : x = y ∧ p = q := by
  have hr := congrArg List.reverse h
  simp only [List.reverse_append, List.reverse_cons, List.append_assoc, List.singleton_append] at hr
  have key : ∀ (p q x y : Bytes), (∀ c ∈ p, c ≠ 58) → (∀ c ∈ q, c ≠ 58) → p ++ 58 :: x = q ++ 58 :: y → x = y ∧ p = q := by
    intro p
    induction p with
    | nil =>
      intro q x y _ hq h
      cases q with
      | nil => simp at h; exact ⟨h, rfl⟩
      | cons c q => simp only [List.nil_append, List.cons_append, List.cons.injEq] at h; exact absurd h.1.symm (hq c (by simp))
    | cons c p ih =>
      intro q x y hp hq h
      cases q with
      | nil => simp only [List.nil_append, List.cons_append, List.cons.injEq] at h; exact absurd h.1 (hp c (by simp))
      | cons d q =>
        simp only [List.cons_append, List.cons.injEq] at h
        obtain ⟨h1, h2⟩ := ih q x y (fun z hz => hp z (by simp [hz])) (fun z hz => hq z (by simp [hz])) h.2
        exact ⟨h1, by rw [h.1, h2]⟩
  obtain ⟨h1, h2⟩ := key p.reverse q.reverse x.reverse y.reverse (by simpa using hp) (by simpa using hq) hr
  exact ⟨List.reverse_inj.1 h1, List.reverse_inj.1 h2⟩

theorem natDigits_no_colon (n : Nat) : ∀ c ∈ natDigits n, c ≠ 58 := by
  intro c hc h
  have := (natDigits_spec n).1 c hc
  rw [h] at this
  exact absurd this.2 (by decide)

theorem natDigits_injective {m n : Nat} (h : natDigits m = natDigits n) : m = n := by
  have h1 := (natDigits_spec m).2
  rw [h, (natDigits_spec n).2] at h1
  exact h1.symm

/-- An `AddrPort` as the program has them: the zero one, or an address and a port. -/
def AddrPort.WellFormed (a : AddrPort) : Prop := a = .zero ∨ ∃ x, a.addr = some x ∧ x.WellFormed

theorem text4_head (w x y z : UInt8) (r : Bytes) : ∃ c cs, text4 w x y z ++ r = c :: cs ∧ 48 ≤ c ∧ c ≤ 57 := by
  obtain ⟨h1, h2, _, _⟩ := natDigits_octet w
  unfold text4
  match hd : natDigits w.toNat, h1, h2 with
  | c :: cs, _, h2 => exact ⟨c, _, rfl, h2 c (by simp)⟩

/-- Different addresses have different texts. -/
theorem addrPortText_inj {a a' : AddrPort} (h : a.WellFormed) (h' : a'.WellFormed) (e : addrPortText a = addrPortText a') : a = a' := by
  obtain ⟨x, n⟩ := a
  obtain ⟨x', n'⟩ := a'
  have hw : ∀ y, x = some y → y.WellFormed := by
    intro y hy
    rcases h with h | ⟨z, hz, hz'⟩
    · simp only [AddrPort.zero, AddrPort.mk.injEq] at h; rw [h.1] at hy; cases hy
    · simp only at hz; rw [hy] at hz; cases hz; exact hz'
  have hw' : ∀ y, x' = some y → y.WellFormed := by
    intro y hy
    rcases h' with h | ⟨z, hz, hz'⟩
    · simp only [AddrPort.zero, AddrPort.mk.injEq] at h; rw [h.1] at hy; cases hy
    · simp only at hz; rw [hy] at hz; cases hz; exact hz'
  have hzero : x = none → n = 0 := by
    rintro rfl
    rcases h with h | ⟨z, hz, _⟩
    · simp only [AddrPort.zero, AddrPort.mk.injEq] at h; exact h.2
    · cases hz
  have hzero' : x' = none → n' = 0 := by
    rintro rfl
    rcases h' with h | ⟨z, hz, _⟩
    · simp only [AddrPort.zero, AddrPort.mk.injEq] at h; exact h.2
    · cases hz
  unfold addrPortText at e
  match x, x', hw, hw', hzero, hzero', e with
  | none, none, _, _, h0, h0', _ => rw [h0 rfl, h0' rfl]
  | none, some (.v4 w x y z), _, _, _, _, e =>
    obtain ⟨c, cs, hc, h1, h2⟩ := text4_head w x y z (58 :: natDigits n')
    simp only [hc, show ascii "invalid AddrPort" = 105 :: ascii "nvalid AddrPort" from rfl, List.cons.injEq] at e
    rw [← e.1] at h2; exact absurd h2 (by decide)
  | some (.v4 w x y z), none, _, _, _, _, e =>
    obtain ⟨c, cs, hc, h1, h2⟩ := text4_head w x y z (58 :: natDigits n)
    simp only [hc, show ascii "invalid AddrPort" = 105 :: ascii "nvalid AddrPort" from rfl, List.cons.injEq] at e
    rw [e.1] at h2; exact absurd h2 (by decide)
  | none, some (.v6 b z), _, _, _, _, e =>
    simp only [show ascii "invalid AddrPort" = 105 :: ascii "nvalid AddrPort" from rfl, List.cons_append, List.cons.injEq] at e
    exact absurd e.1 (by decide)
  | some (.v6 b z), none, _, _, _, _, e =>
    simp only [show ascii "invalid AddrPort" = 105 :: ascii "nvalid AddrPort" from rfl, List.cons_append, List.cons.injEq] at e
    exact absurd e.1 (by decide)
  | some (.v4 w x y z), some (.v6 b u), _, _, _, _, e =>
    obtain ⟨c, cs, hc, h1, h2⟩ := text4_head w x y z (58 :: natDigits n)
    simp only [hc, List.cons_append, List.cons.injEq] at e
    rw [e.1] at h2; exact absurd h2 (by decide)
  | some (.v6 b u), some (.v4 w x y z), _, _, _, _, e =>
    obtain ⟨c, cs, hc, h1, h2⟩ := text4_head w x y z (58 :: natDigits n')
    simp only [hc, List.cons_append, List.cons.injEq] at e
    rw [← e.1] at h2; exact absurd h2 (by decide)
  | some (.v4 w x y z), some (.v4 w' x' y' z'), hw, hw', _, _, e =>
    obtain ⟨h1, h2⟩ := last_colon (natDigits_no_colon n) (natDigits_no_colon n') e
    rw [natDigits_injective h2, addrText_inj (hw _ rfl) (hw' _ rfl) h1]
  | some (.v6 b z), some (.v6 b' z'), hw, hw', _, _, e =>
    simp only [List.cons_append, List.cons.injEq, true_and] at e
    have e' : (addrText (.v6 b z) ++ [93]) ++ 58 :: natDigits n = (addrText (.v6 b' z') ++ [93]) ++ 58 :: natDigits n' := by
      simpa [List.append_assoc] using e
    obtain ⟨h1, h2⟩ := last_colon (natDigits_no_colon n) (natDigits_no_colon n') e'
    have h1 := List.append_cancel_right h1
    rw [natDigits_injective h2, addrText_inj (hw _ rfl) (hw' _ rfl) h1]

end Gotit
