import Verif.Spec.HostPort
import Verif.Props.Netip
/-
  C138: the text that is dialled for a peer.
-/
namespace Gotit.Props
open Gotit Gotit.Spec

/-- Neither a hexadecimal digit nor a dot nor a colon. -/
def Foreign (d : UInt8) : Prop := hexDigitVal d = none ∧ d ≠ 46 ∧ d ≠ 58

theorem hex_foreign {c d : UInt8} (h : isHex c) (hd : Foreign d) : c ≠ d := by rintro rfl; exact h hd.1

theorem octets_foreign {s : Bytes} {l : List UInt8} (h : Octets s l) {d : UInt8} (hd : Foreign d) : ∀ c ∈ s, c ≠ d := by
  induction h with
  | one h => intro c hc; exact hex_foreign (digit_hex (h.2.1 c hc)) hd
  | more h _ ih =>
    intro c hc
    simp only [List.mem_append, List.mem_singleton] at hc
    rcases hc with (hc | rfl) | hc
    · exact hex_foreign (digit_hex (h.2.1 c hc)) hd
    · exact hd.2.1.symm
    · exact ih c hc

theorem tail_foreign {s b : Bytes} (h : Tail s b) {d : UInt8} (hd : Foreign d) : ∀ c ∈ s, c ≠ d := by
  induction h with
  | group h => intro c hc; exact hex_foreign (group_hex h c hc) hd
  | quad h => exact octets_foreign ((quad_iff _ _).1 h).1 hd
  | more h _ ih =>
    intro c hc
    simp only [List.mem_append, List.mem_singleton] at hc
    rcases hc with (hc | rfl) | hc
    · exact hex_foreign (group_hex h c hc) hd
    · exact hd.2.2.symm
    · exact ih c hc

theorem six_foreign {s b : Bytes} (h : Six s b) {d : UInt8} (hd : Foreign d) : ∀ c ∈ s, c ≠ d := by
  cases h with
  | full h _ => exact tail_foreign h hd
  | short h1 h2 _ _ =>
    intro c hc
    simp only [List.mem_append, List.mem_cons, List.not_mem_nil, or_false] at hc
    rcases hc with (hc | rfl | rfl) | hc
    · rcases h1 with ⟨rfl, _⟩ | h1
      · cases hc
      · exact tail_foreign (groups_tail h1) hd c hc
    · exact hd.2.2.symm
    · exact hd.2.2.symm
    · rcases h2 with ⟨rfl, _⟩ | h2
      · cases hc
      · exact tail_foreign h2 hd c hc

theorem foreign_open : Foreign 91 := by unfold Foreign; decide
theorem foreign_close : Foreign 93 := by unfold Foreign; decide

/-- Host and port are determined by the text. -/
theorem hostPort_unique {s h p h' p' : Bytes} (a : HostPort s h p) (b : HostPort s h' p') : h = h' ∧ p = p' := by
  have colon : ∀ {x : Bytes}, (58 : UInt8) ∉ x → ∀ c ∈ x, c ≠ 58 := fun hx c hc he => hx (he ▸ hc)
  generalize hs : s = s' at b
  cases a with
  | plain a1 a2 a3 a4 =>
    cases b with
    | plain b1 b2 b3 b4 => exact last_colon (colon a3) (colon b3) hs
    | bracketed b1 b2 b3 =>
      exfalso
      have : h ++ 58 :: p = (91 :: h' ++ [93]) ++ 58 :: p' := by simpa using hs
      obtain ⟨e, _⟩ := last_colon (colon a3) (colon b2) this
      exact a2.1 (by rw [e]; simp)
  | bracketed a1 a2 a3 =>
    cases b with
    | plain b1 b2 b3 b4 =>
      exfalso
      have : (91 :: h ++ [93]) ++ 58 :: p = h' ++ 58 :: p' := by simpa using hs
      obtain ⟨e, _⟩ := last_colon (colon a2) (colon b3) this
      exact b2.1 (by rw [← e]; simp)
    | bracketed b1 b2 b3 =>
      have : (91 :: h ++ [93]) ++ 58 :: p = (91 :: h' ++ [93]) ++ 58 :: p' := by simpa using hs
      obtain ⟨e, e'⟩ := last_colon (colon a2) (colon b2) this
      simp only [List.cons_append, List.cons.injEq, true_and] at e
      exact ⟨List.append_cancel_right e, e'⟩

theorem digits_plain (n : Nat) : (58 : UInt8) ∉ natDigits n ∧ NoBracket (natDigits n) := by
  have h := (natDigits_spec n).1
  refine ⟨fun hc => ?_, fun hc => ?_, fun hc => ?_⟩ <;> exact absurd (h _ hc).2 (by decide)

theorem text4_plain (a b c d : UInt8) : (58 : UInt8) ∉ text4 a b c d ∧ NoBracket (text4 a b c d) := by
  have h1 := digits_plain a.toNat
  have h2 := digits_plain b.toNat
  have h3 := digits_plain c.toNat
  have h4 := digits_plain d.toNat
  unfold NoBracket at *
  simp only [text4, List.mem_append, List.mem_cons, not_or]
  exact ⟨⟨⟨⟨h1.1, by decide, h2.1⟩, by decide, h3.1⟩, by decide, h4.1⟩, ⟨⟨⟨h1.2.1, by decide, h2.2.1⟩, by decide, h3.2.1⟩, by decide, h4.2.1⟩,
    ⟨⟨h1.2.2, by decide, h2.2.2⟩, by decide, h3.2.2⟩, by decide, h4.2.2⟩

/-- C138, what holds (3): the text that is dialled for an address and port is understood by `net.Dial` exactly if the zone, if any, has no
brackets; and then the host in it is a text of this address, the port in it is this port, and there is no other way to understand it.
The text of the zero `AddrPort`, which stands for an address that could not be read, is not understood at all. -/
theorem C138_dialled_partial (x : Addr) (hx : x.WellFormed) (n : Nat) :
    ((∃ h p, HostPort (addrPortText ⟨some x, n⟩) h p) ↔ ∀ b z, x = .v6 b z → NoBracket z) ∧
    (∀ h p, HostPort (addrPortText ⟨some x, n⟩) h p → AddrText h x ∧ p = natDigits n) ∧
    ∀ h p, ¬ HostPort (addrPortText .zero) h p := by
  have zero : ∀ h p, ¬ HostPort (addrPortText .zero) h p := by
    intro h p hh
    have hc : (58 : UInt8) ∈ addrPortText .zero := by
      generalize addrPortText .zero = s at hh ⊢
      cases hh <;> simp
    exact absurd hc (by decide)
  refine ⟨?_, ?_, zero⟩
  · cases x with
    | v4 a b c d =>
      refine ⟨(fun _ _ _ h => by cases h), fun _ => ⟨_, _, .plain (text4_plain a b c d).1 (text4_plain a b c d).2 (digits_plain n).1 (digits_plain n).2⟩⟩
    | v6 b z =>
      have hsix := text6_six b hx
      have h1 := six_foreign hsix foreign_open
      have h2 := six_foreign hsix foreign_close
      constructor
      · rintro ⟨h, p, hh⟩ b' z' he
        cases he
        have hu : h = addrText (.v6 b z) ∧ NoBracket h := by
          have colon : ∀ {x : Bytes}, (58 : UInt8) ∉ x → ∀ c ∈ x, c ≠ 58 := fun hx c hc he => hx (he ▸ hc)
          generalize hs : addrPortText ⟨some (.v6 b z), n⟩ = s at hh
          cases hh with
          | plain a1 a2 a3 a4 =>
            exfalso
            have : (91 :: addrText (.v6 b z) ++ [93]) ++ 58 :: natDigits n = h ++ 58 :: p := by simpa [addrPortText] using hs
            obtain ⟨e, _⟩ := last_colon (natDigits_no_colon n) (colon a3) this
            exact a2.1 (by rw [← e]; simp)
          | bracketed a1 a2 a3 =>
            have : (91 :: addrText (.v6 b z) ++ [93]) ++ 58 :: natDigits n = (91 :: h ++ [93]) ++ 58 :: p := by simpa [addrPortText] using hs
            obtain ⟨e, _⟩ := last_colon (natDigits_no_colon n) (colon a2) this
            simp only [List.cons_append, List.cons.injEq, true_and] at e
            exact ⟨(List.append_cancel_right e).symm, a1⟩
        rw [hu.1] at hu
        have hm : ∀ c ∈ z, c ∈ addrText (.v6 b z) := by
          intro c hc
          simp only [addrText]
          rw [if_neg (by rintro rfl; cases hc)]
          simp [hc]
        exact ⟨fun h => hu.2.1 (hm _ h), fun h => hu.2.2 (hm _ h)⟩
      · intro h
        have hz := h b z rfl
        refine ⟨_, _, .bracketed (host := addrText (.v6 b z)) ?_ (digits_plain n).1 (digits_plain n).2⟩
        simp only [addrText, NoBracket, List.mem_append, not_or]
        refine ⟨⟨fun hc => h1 _ hc rfl, ?_⟩, fun hc => h2 _ hc rfl, ?_⟩
        · split
          · simp
          · simp only [List.mem_cons, not_or]; exact ⟨by decide, hz.1⟩
        · split
          · simp
          · simp only [List.mem_cons, not_or]; exact ⟨by decide, hz.2⟩
  · intro h p hh
    have colon : ∀ {x : Bytes}, (58 : UInt8) ∉ x → ∀ c ∈ x, c ≠ 58 := fun hx c hc he => hx (he ▸ hc)
    have key : h = addrText x ∧ p = natDigits n := by
      cases x with
      | v4 a b c d =>
        exact hostPort_unique hh (.plain (text4_plain a b c d).1 (text4_plain a b c d).2 (digits_plain n).1 (digits_plain n).2)
      | v6 b z =>
        generalize hs : addrPortText ⟨some (.v6 b z), n⟩ = s at hh
        cases hh with
        | plain a1 a2 a3 a4 =>
          exfalso
          have : (91 :: addrText (.v6 b z) ++ [93]) ++ 58 :: natDigits n = h ++ 58 :: p := by simpa [addrPortText] using hs
          obtain ⟨e, _⟩ := last_colon (natDigits_no_colon n) (colon a3) this
          exact a2.1 (by rw [← e]; simp)
        | bracketed a1 a2 a3 =>
          have : (91 :: addrText (.v6 b z) ++ [93]) ++ 58 :: natDigits n = (91 :: h ++ [93]) ++ 58 :: p := by simpa [addrPortText] using hs
          obtain ⟨e, e'⟩ := last_colon (natDigits_no_colon n) (colon a2) this
          simp only [List.cons_append, List.cons.injEq, true_and] at e
          exact ⟨(List.append_cancel_right e).symm, e'.symm⟩
    rw [key.1, key.2]
    exact ⟨addrText_means hx, rfl⟩

/-- An address with a zone and how it is dialled; a tracker can also send an address whose text is not understood. -/
example : addrPortText ⟨some (.v6 [0xfe, 0x80, 0, 0, 0, 0, 0, 0, 0, 0, 0, 0, 0, 0, 0, 1] (ascii "eth0")), 80⟩ = ascii "[fe80::1%eth0]:80" ∧
    netipParse (ascii "fe80::1%a]b") = some (.v6 [0xfe, 0x80, 0, 0, 0, 0, 0, 0, 0, 0, 0, 0, 0, 0, 0, 1] (ascii "a]b")) ∧
    ¬ ∃ h p, HostPort (addrPortText ⟨some (.v6 [0xfe, 0x80, 0, 0, 0, 0, 0, 0, 0, 0, 0, 0, 0, 0, 0, 1] (ascii "a]b")), 80⟩) h p := by
  refine ⟨by decide +kernel, by decide +kernel, ?_⟩
  rw [(C138_dialled_partial (.v6 [0xfe, 0x80, 0, 0, 0, 0, 0, 0, 0, 0, 0, 0, 0, 0, 0, 1] (ascii "a]b")) rfl 80).1]
  intro h
  exact absurd (h _ _ rfl).2 (by decide)

end Gotit.Props
