import Verif.Lemmas.UriParts

/-!
# Helper lemmas for the URI parser: where an authority begins
-/

namespace OniComb.Uri
open OniComb Rfc
variable {A B : Type} {t rest r : Bytes} {c : Committed} {std : Std}

theorem nameHead_iff : NameHead t ↔ Start RegByte True t := by
  constructor
  · rintro ⟨s, r, rfl, h0, h⟩
    cases h with
    | nil => exact absurd rfl h0
    | byte b t hb _ => exact .inl ⟨b, _, rfl, hb⟩
    | pct x y t hx hy _ => exact .inr ⟨trivial, x, y, _, rfl, hx, hy⟩
  · rintro (⟨b, r, rfl, hb⟩ | ⟨-, x, y, r, rfl, hx, hy⟩)
    · exact ⟨[b], r, rfl, by simp, .byte _ _ hb .nil⟩
    · exact ⟨[byte '%', x, y], r, rfl, by simp, .pct _ _ _ hx hy .nil⟩

/-- The longest beginning that is a registered name. -/
theorem reg_total (r : Bytes) : ∃ u v, r = u ++ v ∧ Enc RegByte u ∧ ¬ Start RegByte True v := by
  rcases outcomes (many0 regChar) r with ⟨t, v, rest, rfl, he⟩ | ⟨c, hc⟩ | hr
  · have := unit_regChar.eats_many0.1 ⟨v, he⟩
    exact ⟨t, rest, rfl, units_true.1 this.1, this.2⟩
  · exact absurd hc fail_many0
  · exact absurd unit_regChar.ret_many0 hr

theorem fail_host (h : Fail (host std) r c) : ¬ NameHead r := by
  intro hn
  obtain ⟨u, v, rfl, hu, hv⟩ := reg_total r
  have h0 : u ≠ [] := by
    rintro rfl
    exact hv (nameHead_iff.1 hn)
  unfold host at h
  rcases fail_or.1 (fail_name.1 h) with ⟨h1, h2⟩ | ⟨-, h2⟩
  · rcases fail_or.1 h2 with ⟨-, h3⟩ | ⟨-, h3⟩
    · cases h1; cases (fail_attempt.1 h3).1
    · cases h1; cases (fail_attempt.1 h3).1
  · exact not_eats_fail (eats_regName.2 ⟨rfl, h0, hu, hv⟩) h2

/-- What begins like an authority is read as one. -/
theorem fail_authority (h : Fail (authority std) r c) : ¬ LikeAuthority r := by
  unfold authority at h
  rcases fail_andThen.1 (fail_map.1 h) with h | ⟨_, _, _, -, -, h⟩
  · rcases fail_andThen.1 h with h | ⟨t, o, r', rfl, h3, h4⟩
    · exact absurd h fail_opt
    · rcases eats_opt.1 h3 with ⟨u, rfl, h5⟩ | ⟨rfl, rfl, c', h5⟩
      · obtain ⟨rfl, hu⟩ := eats_userAt.1 h5
        rintro (⟨u', r'', e, hu', hn⟩ | ⟨hno, -⟩)
        · have h6 : Eats (skipRight userInfo (elm (byte '@'))) (u'.show ++ [byte '@']) u' r'' := eats_userAt.2 ⟨rfl, hu'⟩
          have e' : u.show ++ [byte '@'] ++ r' = u'.show ++ [byte '@'] ++ r'' := by simpa using e
          obtain ⟨-, -, rfl⟩ := eats_unique h5 h6 e'
          exact fail_host h4 hn
        · exact hno u r' (by simp) hu
      · rintro (⟨u', r'', e, hu', hn⟩ | ⟨-, hn⟩)
        · have h6 : Eats (skipRight userInfo (elm (byte '@'))) (u'.show ++ [byte '@']) u' r'' := eats_userAt.2 ⟨rfl, hu'⟩
          rw [show r' = u'.show ++ [byte '@'] ++ r'' by simpa using e] at h5
          exact not_eats_fail h6 h5
        · exact fail_host h4 hn
  · exact absurd h fail_opt

theorem eats_host {h : HostName} (hstd : StdOk std) (he : Eats (host std) t h rest) (hb : ∀ r', t ++ rest ≠ byte '[' :: r') :
    NameHead (t ++ rest) := by
  have := host_sound hstd he
  match h, this with
  | .regName s, ⟨e, h0, h1⟩ => exact ⟨t, rest, rfl, e ▸ h0, e ▸ h1⟩
  | .ipv4 x, h1 =>
    obtain ⟨ta, tb, tc, td, rfl, h2, -⟩ := h1
    obtain ⟨h0, hd, -⟩ := h2
    cases ta with
    | nil => exact absurd rfl h0
    | cons b ta =>
      refine nameHead_iff.2 (.inl ⟨b, _, rfl, ?_⟩)
      exact .inl (.inr (.inl (hd b (by simp))))
  | .ipLiteral (.ipvFuture s), ⟨e, _⟩ => exact absurd (by rw [e]; rfl) (hb (s ++ [byte ']'] ++ rest))
  | .ipLiteral (.ipv6 x), ⟨s, e, _⟩ => exact absurd (by rw [e]; rfl) (hb (s ++ [byte ']'] ++ rest))

/-- What is read as an authority begins like one, unless there is a bracket. -/
theorem eats_authority {a : Authority} (hstd : StdOk std) (he : Eats (authority std) t a rest)
    (hb : byte '[' ∉ (t ++ rest).head?) (hb' : ∀ u r', UserInfoOk u → t ++ rest ≠ u.show ++ byte '@' :: byte '[' :: r') :
    LikeAuthority (t ++ rest) := by
  unfold authority at he
  obtain ⟨⟨⟨u, h'⟩, n⟩, h1, rfl⟩ := eats_map.1 he
  obtain ⟨t1, tp, rfl, h2, -⟩ := eats_andThen.1 h1
  obtain ⟨tu, th, rfl, h4, h5⟩ := eats_andThen.1 h2
  rcases eats_opt.1 h4 with ⟨w, rfl, h6⟩ | ⟨rfl, rfl, c', h6⟩
  · obtain ⟨rfl, hu⟩ := eats_userAt.1 h6
    refine .inl ⟨w, th ++ (tp ++ rest), by simp, hu, eats_host hstd h5 ?_⟩
    intro r' e
    refine hb' w r' hu ?_
    rw [← e]; simp
  · have e' : [] ++ th ++ tp ++ rest = th ++ (tp ++ rest) := by simp
    rw [e'] at hb hb' ⊢
    refine .inr ⟨?_, eats_host hstd h5 ?_⟩
    · intro u r' e hu
      have h7 : Eats (skipRight userInfo (elm (byte '@'))) (u.show ++ [byte '@']) u r' := eats_userAt.2 ⟨rfl, hu⟩
      rw [show th ++ (tp ++ rest) = u.show ++ [byte '@'] ++ r' by simpa using e] at h6
      exact not_eats_fail h7 h6
    · intro r' e
      rw [e] at hb
      simp at hb

/-! ### Only the bytes of the path matter -/

theorem enc_left {P : UInt8 → Prop} (hP : ¬ P (byte '%')) {w x y : Bytes} (hw : Enc P w) (hx : Enc P x)
    (e : w ++ r = x ++ y) : (∃ z, w = x ++ z) ∨ Start P True r := by
  induction hw generalizing x with
  | nil =>
    cases hx with
    | nil => exact .inl ⟨[], rfl⟩
    | byte b t hb _ => exact .inr (.inl ⟨b, _, e, hb⟩)
    | pct a b t ha hb _ => exact .inr (.inr ⟨trivial, a, b, _, e, ha, hb⟩)
  | byte b t hb _ ih =>
    cases hx with
    | nil => exact .inl ⟨_, rfl⟩
    | byte b' t' hb' h' =>
      simp at e
      obtain ⟨rfl, e⟩ := e
      rcases ih h' e with ⟨z, rfl⟩ | h
      · exact .inl ⟨z, rfl⟩
      · exact .inr h
    | pct x' y' t' _ _ _ =>
      simp at e
      exact absurd (e.1 ▸ hb) hP
  | pct h l t _ _ _ ih =>
    cases hx with
    | nil => exact .inl ⟨_, rfl⟩
    | byte b' t' hb' h' =>
      simp at e
      exact absurd (e.1 ▸ hb') hP
    | pct x' y' t' _ _ h' =>
      simp at e
      obtain ⟨rfl, rfl, e⟩ := e
      rcases ih h' e with ⟨z, rfl⟩ | h
      · exact .inl ⟨z, rfl⟩
      · exact .inr h

theorem pathByte_pct : ¬ PathByte (byte '%') := by unfold PathByte; decide

theorem reg_path {b : UInt8} (h : RegByte b) : PathByte b := .inl (.inl h)

theorem enc_reg_path (h : Enc RegByte t) : Enc PathByte t := by
  induction h with
  | nil => exact .nil
  | byte b t hb _ ih => exact .byte b t (reg_path hb) ih
  | pct x y t hx hy _ ih => exact .pct x y t hx hy ih

theorem Enc.app {P : UInt8 → Prop} {t u : Bytes} (h : Enc P t) (h' : Enc P u) : Enc P (t ++ u) := by
  induction h with
  | nil => exact h'
  | byte b t hb _ ih => exact .byte b _ hb ih
  | pct x y t hx hy _ ih => exact .pct x y _ hx hy ih

theorem userAt_path {u : UserInfo} (h : UserInfoOk u) : Enc PathByte (u.show ++ [byte '@']) := by
  have h1 : PathByte (byte '@') := by unfold PathByte; decide
  have h2 : PathByte (byte ':') := by unfold PathByte; decide
  refine Enc.app ?_ (.byte _ _ h1 .nil)
  obtain ⟨n, pw⟩ := u
  cases pw with
  | none => simpa [UserInfo.show, optText] using enc_reg_path h.1
  | some p => exact Enc.app (enc_reg_path h.1) (.byte _ _ h2 (enc_reg_path (h.2 p rfl).2))

theorem nameHead_append {w : Bytes} (hw : Enc PathByte w) (hr : ¬ Start PathByte True r) :
    NameHead (w ++ r) ↔ NameHead w := by
  constructor
  · rintro ⟨s, r', e, h0, h⟩
    rcases enc_left pathByte_pct hw (enc_reg_path h) e with ⟨z, rfl⟩ | h
    · exact ⟨s, z, rfl, h0, h⟩
    · exact absurd h hr
  · rintro ⟨s, z, rfl, h0, h⟩
    exact ⟨s, z ++ r, by simp, h0, h⟩

theorem userAt_append {w y : Bytes} {u : UserInfo} (hw : Enc PathByte w) (hr : ¬ Start PathByte True r) (hu : UserInfoOk u)
    (e : w ++ r = u.show ++ byte '@' :: y) : ∃ z, w = u.show ++ byte '@' :: z ∧ y = z ++ r := by
  rcases enc_left pathByte_pct hw (userAt_path hu) (show w ++ r = u.show ++ [byte '@'] ++ y by simpa using e) with ⟨z, rfl⟩ | h
  · refine ⟨z, by simp, ?_⟩
    simpa using e.symm
  · exact absurd h hr

theorem enc_right {P : UInt8 → Prop} (hP : ¬ P (byte '%')) {x z : Bytes} (hx : Enc P x) (h : Enc P (x ++ z)) : Enc P z := by
  induction hx with
  | nil => exact h
  | byte b t hb _ ih =>
    refine ih ?_
    generalize ht : t ++ z = t' at *
    rw [List.cons_append, ht] at h
    cases h with
    | byte _ _ _ h => exact h
    | pct _ _ _ _ _ _ => exact absurd hb hP
  | pct a b t _ _ _ ih =>
    refine ih ?_
    generalize ht : t ++ z = t' at *
    rw [List.cons_append, List.cons_append, List.cons_append, ht] at h
    cases h with
    | byte _ _ hb _ => exact absurd hb hP
    | pct _ _ _ _ _ h => exact h

theorem likeAuthority_append {w : Bytes} (hw : Enc PathByte w) (hr : ¬ Start PathByte True r) :
    LikeAuthority (w ++ r) ↔ LikeAuthority w := by
  constructor
  · rintro (⟨u, y, e, hu, hn⟩ | ⟨h1, h2⟩)
    · obtain ⟨z, rfl, rfl⟩ := userAt_append hw hr hu e
      refine .inl ⟨u, z, rfl, hu, (nameHead_append ?_ hr).1 hn⟩
      exact enc_right pathByte_pct (userAt_path hu) (by simpa using hw)
    · refine .inr ⟨?_, (nameHead_append hw hr).1 h2⟩
      rintro u z rfl
      exact h1 u (z ++ r) (by simp)
  · rintro (⟨u, z, rfl, hu, hn⟩ | ⟨h1, h2⟩)
    · exact .inl ⟨u, z ++ r, by simp, hu, by obtain ⟨s, y, rfl, h⟩ := hn; exact ⟨s, y ++ r, by simp, h⟩⟩
    · refine .inr ⟨?_, (nameHead_append hw hr).2 h2⟩
      intro u y e hu
      obtain ⟨z, rfl, rfl⟩ := userAt_append hw hr hu e
      exact h1 u z rfl hu

theorem pathText_enc {p : Path} (h : PathText t p) : Enc PathByte t := by
  have seg : ∀ s, SegmentPart s → Enc PathByte s := by
    rintro s ⟨x, rfl, hx⟩
    refine .byte _ _ (.inr rfl) ?_
    induction hx with
    | nil => exact .nil
    | byte b t hb _ ih => exact .byte b t (.inl hb) ih
    | pct x y t hx hy _ ih => exact .pct x y t hx hy ih
  have segs : ∀ ps : List Bytes, (∀ s ∈ ps, SegmentPart s) → Enc PathByte ps.flatten := by
    intro ps
    induction ps with
    | nil => intro _; exact .nil
    | cons s ps ih =>
      intro h
      exact Enc.app (seg s (h s (by simp))) (ih fun s hs => h s (by simp [hs]))
  match p, h with
  | .abempty ps, ⟨e, h⟩ => exact e ▸ segs ps h
  | .rootless ps, ⟨e, s, ss, e', h0, h1, h2⟩ =>
    subst e' e
    refine Enc.app ?_ (segs ss h2)
    clear h0 h
    induction h1 with
    | nil => exact .nil
    | byte b t hb _ ih => exact .byte b t (.inl hb) ih
    | pct x y t hx hy _ ih => exact .pct x y t hx hy ih

theorem bracket_path : ¬ PathByte (byte '[') := by unfold PathByte; decide

theorem bracket_head {w y : Bytes} (hw : Enc PathByte w) (hr : ∀ y, r ≠ byte '[' :: y) : w ++ r ≠ byte '[' :: y := by
  intro e
  cases hw with
  | nil => exact hr _ e
  | byte b t hb _ => simp at e; exact bracket_path (e.1 ▸ hb)
  | pct a b t _ _ _ => simp at e; exact absurd e.1 (by decide)

/-- A path that is read as an authority begins like one. -/
theorem likeAuthority_of_eats (hstd : StdOk std) {w : Bytes} {a : Authority} (hw : Enc PathByte w)
    (hr : ¬ Start PathByte True r) (hb : ∀ y, r ≠ byte '[' :: y) (he : Eats (authority std) t a rest)
    (e : t ++ rest = w ++ r) : LikeAuthority w := by
  refine (likeAuthority_append hw hr).1 (e ▸ eats_authority hstd he ?_ ?_)
  · rw [e]
    intro h
    obtain ⟨y, hy⟩ := List.head?_eq_some_iff.1 (Option.mem_def.1 h)
    exact bracket_head hw hb hy
  · intro u y hu e'
    rw [e] at e'
    obtain ⟨z, rfl, hz⟩ := userAt_append hw hr hu e'
    exact bracket_head (enc_right pathByte_pct (userAt_path hu) (by simpa using hw)) hb hz.symm

end OniComb.Uri
