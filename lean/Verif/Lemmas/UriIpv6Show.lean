import Verif.Model.UriIpv6Show
import Verif.Lemmas.UriRest

/-!
# Helper lemmas for the URI parser: printed IPv6 addresses
-/

namespace OniComb.Uri
open OniComb Rfc
variable {t : Bytes}

theorem hexChar_spec {n : Nat} (h : n < 16) : Hex (hexChar n) ∧ hexDigit (hexChar n) = n := by
  have key : ∀ n ∈ List.range 16, Hex (hexChar n) ∧ hexDigit (hexChar n) = n := by decide +kernel
  exact key n (List.mem_range.2 h)

theorem hexText_spec (n : Nat) : (∀ b ∈ hexText n, Hex b) ∧ hexValue (hexText n) = n ∧ 1 ≤ (hexText n).length ∧
    ∀ k, n < 16 ^ (k + 1) → (hexText n).length ≤ k + 1 := by
  induction n using Nat.strongRecOn with
  | _ n ih =>
    unfold hexText
    split
    · rename_i hn
      refine ⟨?_, ?_, by simp, by simp⟩
      · simpa using (hexChar_spec hn).1
      · simp [hexValue, (hexChar_spec hn).2]
    · rename_i hn
      obtain ⟨h1, h2, h3, h4⟩ := ih (n / 16) (by omega)
      have hm : n % 16 < 16 := Nat.mod_lt _ (by omega)
      refine ⟨?_, ?_, by simp, ?_⟩
      · intro b hb
        rcases List.mem_append.1 hb with hb | hb
        · exact h1 b hb
        · rw [List.mem_singleton] at hb; subst hb; exact (hexChar_spec hm).1
      · unfold hexValue at h2 ⊢
        rw [List.foldl_append, h2]
        simp only [List.foldl_cons, List.foldl_nil, (hexChar_spec hm).2]
        omega
      · intro k hk
        cases k with
        | zero => omega
        | succ k =>
          have := h4 k (by rw [Nat.div_lt_iff_lt_mul (by omega)]; rw [Nat.pow_succ] at hk; exact hk)
          simp; omega

theorem h16_hexText {n : Nat} (h : n < 65536) : H16Text (hexText n) n := by
  obtain ⟨h1, h2, h3, h4⟩ := hexText_spec n
  exact ⟨h3, h4 3 (by omega), h1, h2⟩

theorem groups_segments : ∀ (ns : List Nat), ns ≠ [] → (∀ n ∈ ns, n < 65536) → Groups (segmentsText ns) ns
  | [], h, _ => absurd rfl h
  | [n], _, h => .one _ _ (h16_hexText (h n (by simp)))
  | n :: m :: ns, _, h => .cons _ _ _ _ (h16_hexText (h n (by simp)))
      (groups_segments (m :: ns) (by simp) fun k hk => h k (by simp [hk]))

theorem optGroups_segments (ns : List Nat) (h : ∀ n ∈ ns, n < 65536) : OptGroups (segmentsText ns) ns := by
  by_cases hn : ns = []
  · subst hn; exact .inl ⟨rfl, rfl⟩
  · exact .inr (groups_segments ns hn h)

theorem longestZeros_spec (all : List Nat) : ∀ (ns pre : List Nat) (longest current : Span), all = pre ++ ns →
    (∃ a b, all = a ++ List.replicate longest.len 0 ++ b ∧ a.length = longest.start) →
    (∃ a, pre = a ++ List.replicate current.len 0 ∧ (current.len ≠ 0 → a.length = current.start)) →
    ∃ a b, all = a ++ List.replicate (longestZeros pre.length longest current ns).len 0 ++ b ∧
      a.length = (longestZeros pre.length longest current ns).start
  | [], _, _, _, _, h, _ => h
  | n :: ns, pre, longest, current, he, h1, h2 => by
    obtain ⟨a, h2, h3⟩ := h2
    have hl : (pre ++ [n]).length = pre.length + 1 := by simp
    have he' : all = (pre ++ [n]) ++ ns := by simp [he]
    unfold longestZeros
    split
    · rename_i hn
      subst hn
      rw [← hl]
      have key : pre ++ [0] = a ++ List.replicate (current.len + 1) 0 := by
        rw [h2, List.replicate_succ', List.append_assoc]
      have hs : a.length = if current.len = 0 then pre.length else current.start := by
        split
        · rename_i h0; rw [h2, h0]; simp
        · rename_i h0; exact h3 h0
      refine longestZeros_spec all ns (pre ++ [0]) _ _ he' ?_ ⟨a, key, fun _ => hs⟩
      generalize hc : (⟨if current.len = 0 then pre.length else current.start, current.len + 1⟩ : Span) = c
      have c1 : c.len = current.len + 1 := by rw [← hc]
      have c2 : a.length = c.start := by rw [hs, ← hc]
      split
      · exact ⟨a, ns, by rw [he', key, c1], c2⟩
      · exact h1
    · rw [← hl]
      exact longestZeros_spec all ns (pre ++ [n]) _ _ he' h1 ⟨pre ++ [n], by simp, fun h => absurd rfl h⟩

/-- Eight segments of 16 bits. -/
theorem displayIpv6_text {x : Ipv6} (hl : x.segments.length = 8) (hx : ∀ n ∈ x.segments, n < 65536) :
    Ipv6Text (displayIpv6 x) x ∧ ¬ SevenGroups (displayIpv6 x) := by
  have full : ∀ {t : Bytes} {ns : List Nat}, Tail t ns → ¬ SevenGroups t := by
    rintro t ns h ⟨g, ms, rfl, -, -⟩
    obtain ⟨d, b', he', hd⟩ := tail_colons h g [byte ':'] (by rw [double])
    cases he'
    revert hd; decide
  have short : ∀ {t u : Bytes} {ns ms : List Nat}, OptGroups t ns → ns.length ≤ 6 →
      ¬ SevenGroups (t ++ bytes "::" ++ u) := by
    rintro t u ns ms h hn ⟨g, ks, he, hg, hk⟩
    have hg' : OptGroups g ks := .inr hg
    obtain ⟨rfl, -⟩ := double_unique (X := u) (Y := []) h.colons hg'.colons (by simpa using he)
    rcases h with ⟨rfl, rfl⟩ | h
    · obtain ⟨d, t', he, -⟩ := groups_head hg; cases he
    · rw [tail_unique h.tail hg.tail] at hn; omega
  obtain ⟨segs⟩ := x
  simp only at hl hx
  unfold displayIpv6
  dsimp only
  split
  · rename_i h l
    have hh : h < 65536 := hx h (by simp)
    have hl' : l < 65536 := hx l (by simp)
    have h4 : Tail (Ipv4.show ⟨h / 256, h % 256, l / 256, l % 256⟩) [h, l] := by
      have := Tail.ipv4 _ _ ((ipv4Text_iff (x := ⟨h / 256, h % 256, l / 256, l % 256⟩)).2 ⟨rfl, by
        show h / 256 ≤ 255 ∧ h % 256 ≤ 255 ∧ l / 256 ≤ 255 ∧ l % 256 ≤ 255
        omega⟩)
      dsimp only at this
      rw [show h / 256 * 256 + h % 256 = h by omega, show l / 256 * 256 + l % 256 = l by omega] at this
      exact this
    have hf : H16Text (bytes "ffff") 0xffff := by
      refine ⟨by decide, by decide, by decide, by decide⟩
    have ht := Tail.cons _ _ _ _ hf h4
    have e : bytes "::ffff:" ++ Ipv4.show ⟨h / 256, h % 256, l / 256, l % 256⟩ =
        [] ++ bytes "::" ++ (bytes "ffff" ++ byte ':' :: Ipv4.show ⟨h / 256, h % 256, l / 256, l % 256⟩) := by
      rw [show bytes "::ffff:" = bytes "::" ++ (bytes "ffff" ++ [byte ':']) by decide]
      simp
    rw [e]
    exact ⟨Ipv6Text.short [] _ [] _ (.inl ⟨rfl, rfl⟩) (.inr ht) (by simp), short (ms := []) (.inl ⟨rfl, rfl⟩) (by simp)⟩
  · obtain ⟨a, b, h1, h2⟩ := longestZeros_spec segs segs [] ⟨0, 0⟩ ⟨0, 0⟩ rfl ⟨[], segs, by simp, rfl⟩
      ⟨[], by simp, fun h => absurd rfl h⟩
    dsimp only [List.length_nil] at h1 h2
    generalize longestZeros 0 ⟨0, 0⟩ ⟨0, 0⟩ segs = z at h1 h2
    split
    · rename_i hz
      have e1 : segs.take z.start = a := by rw [h1, ← h2]; simp
      have e2 : segs.drop (z.start + z.len) = b := by
        rw [h1, ← h2, List.drop_append_of_le_length (by simp)]
        simp
      rw [e1, e2]
      have ha := optGroups_segments a fun n hn => hx n (by rw [h1]; simp [hn])
      have hb : OptTail (segmentsText b) b := by
        rcases optGroups_segments b fun n hn => hx n (by rw [h1]; simp [hn]) with h | h
        · exact .inl h
        · exact .inr h.tail
      have hlen := hl
      rw [h1] at hlen
      simp only [List.length_append, List.length_replicate] at hlen
      refine ⟨?_, short (ms := []) ha (by omega)⟩
      have := Ipv6Text.short _ _ _ _ ha hb (by omega)
      rw [show 8 - a.length - b.length = z.len by omega, ← h1] at this
      exact this
    · have hg := (groups_segments segs (by rintro rfl; cases hl) hx).tail
      exact ⟨.full _ _ hg hl, full hg⟩

theorem hexDigit_lt {b : UInt8} (h : Hex b) : hexDigit b < 16 := by
  unfold hexDigit
  rcases h with h | h | h
  · have h3 := h.1; have h4 := h.2; rw [if_pos h4]; omega
  · have h3 := h.1; have h4 := h.2; rw [if_neg (by omega), if_pos h4]; omega
  · have h3 := h.1; have h4 := h.2; rw [if_neg (by omega), if_neg (by omega)]; omega

theorem hexFold_lt : ∀ (t : Bytes) (m : Nat), (∀ b ∈ t, Hex b) →
    t.foldl (fun n b => n * 16 + hexDigit b) m < (m + 1) * 16 ^ t.length
  | [], m, _ => by simp
  | b :: t, m, h => by
    have h1 := hexFold_lt t (m * 16 + hexDigit b) fun c hc => h c (by simp [hc])
    have h2 := hexDigit_lt (h b (by simp))
    rw [List.foldl_cons, List.length_cons, Nat.pow_succ, Nat.mul_comm (16 ^ _) 16, ← Nat.mul_assoc]
    exact Nat.lt_of_lt_of_le h1 (Nat.mul_le_mul_right _ (by omega))

theorem h16_lt {n : Nat} (h : H16Text t n) : n < 65536 := by
  obtain ⟨-, h2, h3, rfl⟩ := h
  have h4 := hexFold_lt t 0 h3
  have h5 : 16 ^ t.length ≤ 16 ^ 4 := Nat.pow_le_pow_right (by omega) h2
  unfold hexValue
  omega

theorem tail_lt {ns : List Nat} (h : Tail t ns) : ∀ n ∈ ns, n < 65536 := by
  induction h with
  | one t n h => intro m hm; rw [List.mem_singleton] at hm; subst hm; exact h16_lt h
  | ipv4 t x h =>
    obtain ⟨-, -, -, -, -, -, -, -, -, h1, h2, h3, h4⟩ := h
    intro m hm
    simp only [List.mem_cons, List.not_mem_nil, or_false] at hm
    rcases hm with rfl | rfl <;> omega
  | cons t n u ns h _ ih =>
    intro m hm
    rcases List.mem_cons.1 hm with rfl | hm
    · exact h16_lt h
    · exact ih m hm

theorem ipv6Text_valid {x : Ipv6} (h : Ipv6Text t x) : x.segments.length = 8 ∧ ∀ n ∈ x.segments, n < 65536 := by
  cases h with
  | full _ ns h hl => exact ⟨hl, tail_lt h⟩
  | short a u ns ms h1 h2 h3 =>
    refine ⟨by simp; omega, ?_⟩
    intro n hn
    simp only [List.mem_append, List.mem_replicate] at hn
    rcases hn with (hn | hn) | hn
    · rcases h1 with ⟨-, rfl⟩ | h1
      · cases hn
      · exact tail_lt h1.tail n hn
    · omega
    · rcases h2 with ⟨-, rfl⟩ | h2
      · cases hn
      · exact tail_lt h2 n hn

end OniComb.Uri
