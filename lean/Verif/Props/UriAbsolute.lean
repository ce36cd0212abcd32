import Verif.Props.Uri

/-!
# Absolute URIs (C116)

RFC 3986 requires a scheme in a URI and calls a URI absolute if it has no fragment.  `Uri::parse` accepts a URI
without its scheme, and `is_absolute` does not look at it.
-/

namespace OniComb.Uri

open OniComb Rfc

variable {t input : Bytes}

/-- The scheme is what stands in front of the first colon, which has to be there. -/
theorem c116_scheme {std : Std} (hstd : StdOk std) {u : Uri} (h : Uri.parse std input = .ok u) :
    (u.scheme = none ∧ ∃ r, input = byte ':' :: r) ∨
      ∃ s r, u.scheme = some s ∧ SchemeText s ∧ input = s ++ byte ':' :: r ∧ byte ':' ∉ s := by
  obtain ⟨t, rest, rfl, he⟩ := parse_iff.1 h
  obtain ⟨ts, th, tq, tf, rfl, h1, -, -, -⟩ := uri_sound hstd he
  cases hu : u.scheme with
  | none =>
    rw [hu] at h1; have h1 : ts = [] := h1; subst h1
    exact .inl ⟨rfl, th ++ tq ++ tf ++ rest, by simp⟩
  | some s =>
    rw [hu] at h1
    obtain ⟨_, rfl, rfl, hs⟩ := h1
    refine .inr ⟨_, th ++ tq ++ tf ++ rest, rfl, hs, by simp, ?_⟩
    obtain ⟨a, s, rfl, h5, h6⟩ := hs
    rw [List.mem_cons, not_or]
    refine ⟨fun e => absurd (e ▸ h5) (by decide), fun hm => ?_⟩
    exact absurd (h6 _ hm) (by decide)

/-- A text without a colon is not a URI. -/
theorem c116_colon {std : Std} (hstd : StdOk std) (hc : byte ':' ∉ input) (u : Uri) :
    Uri.parse std input ≠ .ok u := by
  intro h
  rcases c116_scheme hstd h with ⟨-, r, rfl⟩ | ⟨s, r, -, -, rfl, -⟩ <;> simp at hc

/-- `is_absolute` holds exactly if no number sign was read. -/
theorem c116_fragment {std : Std} (hstd : StdOk std) {u : Uri} {n : Nat}
    (h : uri std ⟨input, 0⟩ = .success u n) : u.isAbsolute = true ↔ byte '#' ∉ input.take n := by
  obtain ⟨t, rest, rfl, rfl, he⟩ := success_split h
  rw [List.take_left, hash_iff (uri_sound hstd he)]
  unfold Uri.isAbsolute
  simp

/-- Every URI is still accepted after its scheme has been taken away, with all other components as before, and is
called absolute if it was so with the scheme. -/
theorem c116_scheme_violated {std : Std} (hstd : StdOk std) {s r : Bytes} {u : Uri} (hs : u.scheme = some s)
    (h : UriText (¬ SevenGroups ·) (s ++ byte ':' :: r) u) (ha : Unambiguous u) :
    Uri.parse std (byte ':' :: r) = .ok { u with scheme := none } ∧
      Uri.isAbsolute { u with scheme := none } = u.isAbsolute := by
  obtain ⟨ts, th, tq, tf, e, h1, h2, h3, h4⟩ := h
  rw [hs] at h1
  obtain ⟨_, rfl, rfl, -⟩ := h1
  refine ⟨c51_text_partial hstd ⟨[], th, tq, tf, ?_, rfl, h2, h3, h4⟩ ha, rfl⟩
  simpa using e

example : UriText (¬ SevenGroups ·) (bytes "tel" ++ byte ':' :: bytes "110") ⟨some (bytes "tel"),
      some ⟨none, .rootless [bytes "110"]⟩, none, none⟩ ∧
    Unambiguous ⟨some (bytes "tel"), some ⟨none, .rootless [bytes "110"]⟩, none, none⟩ := by
  refine ⟨⟨bytes "tel", bytes "110", [], [], by decide, ⟨_, rfl, rfl, byte 't', bytes "el", by decide, by decide, by decide⟩,
    ⟨_, rfl, [], bytes "110", by decide, rfl, ⟨by decide, bytes "110", [], rfl, by decide, .of_all (by decide), by simp⟩,
      by simp, by simp [Path.parts]⟩, rfl, rfl⟩, ?_, ?_⟩
  · intro s h; simp [Uri.hostName, Uri.authority] at h
  · rintro h r ⟨⟩ - e
    rw [show bytes "//" = [byte '/', byte '/'] by decide] at e
    exact absurd (show some (byte '1') = some (byte '/') from congrArg List.head? e) (by decide)

example : Uri.parse noStd (bytes ":110") = .ok ⟨none, some ⟨none, .rootless [bytes "110"]⟩, none, none⟩ := by
  decide +kernel

example : Uri.parse noStd (bytes "a/b") ≠ .ok ⟨none, some ⟨none, .rootless [bytes "a", bytes "/b"]⟩, none, none⟩ := by
  decide +kernel

example : uri noStd ⟨bytes "a:b#c d", 0⟩ = .success ⟨some (bytes "a"), some ⟨none, .rootless [bytes "b"]⟩, none,
    some (bytes "c")⟩ 5 := by decide +kernel

end OniComb.Uri
