import Verif.Lemmas.UriShow

/-!
# Helper lemmas for the URI parser: authorities of which only a part is read
-/

namespace OniComb.Uri
open OniComb Rfc

variable {std : Std} {t rest : Bytes}

/-- Bytes of registered names and percent encoded bytes. -/
def NameByte (b : UInt8) : Prop := RegByte b ∨ b = byte '%' ∨ Hex b

instance : DecidablePred NameByte := fun _ => inferInstanceAs (Decidable (_ ∨ _))

theorem enc_name (h : Enc RegByte t) : ∀ b ∈ t, NameByte b := by
  induction h with
  | nil => simp
  | byte b t hb _ ih =>
    intro c hc
    rcases List.mem_cons.1 hc with rfl | hc
    · exact .inl hb
    · exact ih c hc
  | pct h l t h1 h2 _ ih =>
    intro c hc
    simp only [List.mem_cons] at hc
    rcases hc with rfl | rfl | rfl | hc
    · exact .inr (.inl rfl)
    · exact .inr (.inr h1)
    · exact .inr (.inr h2)
    · exact ih c hc

theorem name_at : ¬ NameByte (byte '@') := by decide
theorem name_colon : ¬ NameByte (byte ':') := by decide

/-- A name and a colon without a password and `@` behind are not user info. -/
theorem no_password {s w : Bytes} (hs : Enc RegByte s)
    (hw : ∀ p r', p ≠ [] → Enc RegByte p → w ≠ p ++ byte '@' :: r') :
    ∃ c, Fail (skipRight userInfo (elm (byte '@'))) (s ++ byte ':' :: w) c := by
  rw [fails_iff]
  intro t u r' he hu
  obtain ⟨rfl, h1, h2⟩ := eats_userAt.1 hu
  obtain ⟨n, pw⟩ := u
  cases pw with
  | none =>
    simp only [UserInfo.show, optText, List.append_nil, List.append_assoc, List.singleton_append] at he
    have := (span_unique (enc_name hs) (enc_name h1) name_colon name_at he).2.1
    revert this; decide
  | some p =>
    obtain ⟨h3, h4⟩ := h2 p rfl
    simp only [UserInfo.show, optText, List.append_assoc, List.cons_append] at he
    have := (span_unique (enc_name hs) (enc_name h1) name_colon name_colon he).2.2
    simp only [List.nil_append] at this
    exact hw p r' h3 h4 this

theorem hostStop_colon {w : Bytes} : HostStop (byte ':' :: w) := by
  intro b r' he
  simp at he
  rw [← he.1]; decide

/-- Without password and `@` the name is the host. -/
theorem authority_name (hstd : StdOk std) {s w : Bytes} (h0 : s ≠ []) (hs : Enc RegByte s) (hn : NoIpv4Prefix s)
    (hw : ∀ p r', p ≠ [] → Enc RegByte p → w ≠ p ++ byte '@' :: r') (hd : ¬ Start Digit False w) :
    Eats (authority std) s ⟨.regName s, none, none⟩ (byte ':' :: w) := by
  unfold authority
  refine eats_map.2 ⟨((none, .regName s), none), eats_andThen.2 ⟨s, [], by simp, eats_andThen.2 ⟨[], s, rfl, ?_, ?_⟩, ?_⟩, rfl⟩
  · exact eats_opt.2 (.inr ⟨rfl, rfl, by simpa using no_password hs hw⟩)
  · exact host_complete hstd ⟨rfl, h0, hs⟩ (by rintro s' ⟨⟩; exact hn) hostStop_colon
  · refine eats_opt.2 (.inr ⟨rfl, rfl, fails_iff.2 fun t n r' he hv => ?_⟩)
    obtain ⟨ds, rfl, g0, g1, -⟩ := eats_colonPort.1 hv
    simp at he
    cases ds with
    | nil => exact g0 rfl
    | cons d ds => exact hd (.inl ⟨d, ds ++ r', by simp [he], g1 d (by simp)⟩)

/-- If digits follow the colon, they are the port. -/
theorem authority_port (hstd : StdOk std) {s ds w : Bytes} (h0 : s ≠ []) (hs : Enc RegByte s) (hn : NoIpv4Prefix s)
    (hw : ∀ p r', p ≠ [] → Enc RegByte p → ds ++ w ≠ p ++ byte '@' :: r') (hds : ds ≠ []) (hdd : ∀ b ∈ ds, Digit b)
    (hv : value ds ≤ 65535) (hd : ¬ Start Digit False w) :
    Eats (authority std) (s ++ byte ':' :: ds) ⟨.regName s, some (value ds), none⟩ w := by
  unfold authority
  refine eats_map.2 ⟨((none, .regName s), some (value ds)), eats_andThen.2 ⟨s, byte ':' :: ds, by simp,
    eats_andThen.2 ⟨[], s, rfl, ?_, ?_⟩, ?_⟩, rfl⟩
  · exact eats_opt.2 (.inr ⟨rfl, rfl, by simpa using no_password hs hw⟩)
  · exact host_complete hstd ⟨rfl, h0, hs⟩ (by rintro s' ⟨⟩; exact hn) hostStop_colon
  · exact eats_opt.2 (.inl ⟨_, rfl, eats_colonPort.2 ⟨ds, rfl, hds, hdd, rfl, hv, hd⟩⟩)

/-- A name that begins with an address: the address is the host. -/
theorem authority_ipv4 {x : Ipv4} {b : UInt8} {r : Bytes} (ht : Ipv4Text t x)
    (hs : Enc RegByte (t ++ b :: r)) (hb : ¬ Digit b) (hr : Stop rest) :
    Eats (authority std) t ⟨.ipv4 x, none, none⟩ (b :: r ++ rest) := by
  unfold authority
  refine eats_map.2 ⟨((none, .ipv4 x), none), eats_andThen.2 ⟨t, [], by simp, eats_andThen.2 ⟨[], t, rfl, ?_, ?_⟩, ?_⟩, rfl⟩
  · refine eats_opt.2 (.inr ⟨rfl, rfl, ?_⟩)
    have := no_userAt (h := .regName (t ++ b :: r)) (n := none) (tp := []) (V := fun _ => True)
      (⟨rfl, by simp, hs⟩) rfl hr
    simpa using this
  · obtain ⟨d, t', e, hd⟩ := ipv4_digit_head ht
    unfold host
    rw [eats_name]
    refine eats_or.2 (.inl (eats_or.2 (.inr ⟨fail_attempt.2 ⟨rfl, _, fail_map.2 (fail_ipLiteral ?_)⟩,
      eats_attempt.2 (eats_map.2 ⟨x, eats_ipv4Address.2 ⟨ht, ?_⟩, rfl⟩)⟩)))
    · intro r' he; rw [e] at he; simp at he; exact digit_head hd he.1
    · intro b' r' he hb'
      simp at he
      exact absurd (he.1 ▸ hb') hb
  · refine eats_opt.2 (.inr ⟨rfl, rfl, _, fail_skipLeft.2 (.inl (fail_elm.2 ⟨rfl, ?_⟩))⟩)
    intro r' he
    simp at he
    exact name_colon (he.1 ▸ enc_name hs b (by simp))

/-- Behind an authority that is not followed by a path, a query or a fragment, reading stops. -/
theorem uri_authority {sch ta : Bytes} {a : Authority} (hs : SchemeText sch) (ha : Eats (authority std) ta a rest)
    (hr : ∀ c ∈ ['/', '?', '#'], ∀ r', rest ≠ byte c :: r') :
    Eats (uri std) (sch ++ bytes "://" ++ ta) ⟨some sch, some ⟨some a, .abempty []⟩, none, none⟩ rest := by
  have b1 : bytes "://" = [byte ':'] ++ bytes "//" := by decide
  unfold uri
  refine eats_map.2 ⟨(((some sch, some ⟨some a, .abempty []⟩), none), none), eats_andThen.2
    ⟨sch ++ bytes "://" ++ ta, [], by simp, eats_andThen.2 ⟨sch ++ bytes "://" ++ ta, [], by simp, eats_andThen.2
    ⟨sch ++ [byte ':'], bytes "//" ++ ta, by rw [b1]; simp, eats_skipRight.2 ⟨sch, [byte ':'], _, rfl,
    eats_opt.2 (.inl ⟨sch, rfl, eats_scheme.2 ⟨rfl, hs, start_cons (by decide) (by decide)⟩⟩),
    eats_elm.2 ⟨rfl, rfl⟩⟩, ?_⟩, ?_⟩, ?_⟩, rfl⟩
  · rw [hierPart_eq]
    refine eats_opt.2 (.inl ⟨_, rfl, eats_or.2 (.inl (eats_attempt.2 ?_))⟩)
    unfold hierP1
    refine eats_map.2 ⟨(a, .abempty []), eats_andThen.2 ⟨bytes "//" ++ ta, [], by simp, eats_skipLeft.2 ⟨bytes "//", ta, _,
        rfl, eats_seq.2 ⟨rfl, rfl⟩, by simpa using ha⟩,
        eats_pathAbempty0.2 ⟨[], rfl, ⟨rfl, by simp⟩, by simp, ?_⟩⟩, rfl⟩
    simpa using hr '/' (by simp)
  · exact eats_opt.2 (.inr ⟨rfl, rfl, _, fail_skipLeft.2 (.inl (fail_elm.2 ⟨rfl, by simpa using hr '?' (by simp)⟩))⟩)
  · exact eats_opt.2 (.inr ⟨rfl, rfl, _, fail_skipLeft.2 (.inl (fail_elm.2 ⟨rfl, by simpa using hr '#' (by simp)⟩))⟩)

/-- There is no failure in front of a name. -/
theorem host_name_total {s : Bytes} (h0 : s ≠ []) (he : Enc RegByte s) (hr : HostStop rest) {c : Committed} :
    ¬ Fail (host std) (s ++ rest) c := by
  intro hf
  unfold host at hf
  rcases fail_or.1 (fail_name.1 hf) with ⟨-, h⟩ | ⟨-, h⟩
  · rcases fail_or.1 h with ⟨-, h⟩ | ⟨-, h⟩
    · cases (fail_attempt.1 h).1
    · cases (fail_attempt.1 h).1
  · exact not_eats_fail (eats_regName.2 ⟨rfl, h0, he, not_start (by decide) (by decide) (fun _ => reg_uri) hr⟩) h

theorem hierP1_total {s : Bytes} (h0 : s ≠ []) (he : Enc RegByte s) (hr : Stop rest) {c : Committed} :
    ¬ Fail (hierP1 std) (bytes "//" ++ (s ++ rest)) c := by
  intro hf
  unfold hierP1 at hf
  rcases fail_andThen.1 (fail_map.1 hf) with h | ⟨t, v, r', -, -, h⟩
  · rcases fail_skipLeft.1 h with h | ⟨t, v, r', e, h1, h2⟩
    · exact fail_seq.1 ⟨_, h⟩ ⟨_, rfl⟩
    · obtain ⟨rfl, -⟩ := eats_seq.1 h1
      obtain rfl := List.append_cancel_left e
      unfold authority at h2
      rcases fail_andThen.1 (fail_map.1 h2) with h | ⟨_, _, _, -, -, h⟩
      · rcases fail_andThen.1 h with h | ⟨t, o, r', e, h3, h4⟩
        · exact fail_opt h
        · rcases eats_opt.1 h3 with ⟨u, rfl, h5⟩ | ⟨rfl, rfl, -⟩
          · have := no_userAt (h := .regName s) (n := none) (tp := []) (V := fun _ => True) ⟨rfl, h0, he⟩ rfl hr
            obtain ⟨c', hc'⟩ := this
            rw [List.append_nil, e] at hc'
            exact not_eats_fail h5 hc'
          · rw [List.nil_append] at e
            subst e
            exact host_name_total h0 he hr.host h4
      · exact fail_opt h
  · unfold pathAbempty at h
    exact fail_many0 (fail_map.1 (fail_name.1 h))

theorem scheme_colon : ¬ SchemeByte (byte ':') := by decide

theorem scheme_mem {sch : Bytes} (h : SchemeText sch) : ∀ b ∈ sch, SchemeByte b := by
  obtain ⟨a, s, rfl, ha, hs⟩ := h
  intro b hb
  rcases List.mem_cons.1 hb with rfl | hb
  · exact .inl ha
  · exact hs b hb

/-- Two slashes and a name are always read as an authority. -/
theorem uri_slashes {sch s : Bytes} {u : Uri} (hs : SchemeText sch) (h0 : s ≠ []) (he : Enc RegByte s)
    (hr : Stop rest) {t r : Bytes} (e : sch ++ byte ':' :: (bytes "//" ++ (s ++ rest)) = t ++ r)
    (h : Eats (uri std) t u r) : u.authority ≠ none := by
  unfold uri at h
  obtain ⟨⟨⟨⟨sc, hi⟩, q⟩, f⟩, h1, rfl⟩ := eats_map.1 h
  obtain ⟨t1, tf, rfl, h2, hf⟩ := eats_andThen.1 h1
  obtain ⟨t2, tq, rfl, h3, hq⟩ := eats_andThen.1 h2
  obtain ⟨t3, th, rfl, h4, hh⟩ := eats_andThen.1 h3
  obtain ⟨ts, tc, w, rfl, hsc, hc⟩ := eats_skipRight.1 h4
  obtain ⟨rfl, -⟩ := eats_elm.1 hc
  have e' : bytes "//" ++ (s ++ rest) = th ++ (tq ++ (tf ++ r)) := by
    rcases eats_opt.1 hsc with ⟨a, -, ha⟩ | ⟨rfl, -, -⟩
    · obtain ⟨-, hst, -⟩ := eats_scheme.1 ha
      have := span_unique (scheme_mem hs) (scheme_mem hst) scheme_colon scheme_colon
        (show sch ++ byte ':' :: _ = ts ++ byte ':' :: (th ++ (tq ++ (tf ++ r))) by simpa using e)
      exact this.2.2
    · obtain ⟨a, s', rfl, ha, -⟩ := hs
      simp at e
      rw [e.1] at ha
      exact absurd ha (by decide)
  rw [hierPart_eq] at hh
  have nf : ∀ c, ¬ Fail (hierP1 std) (th ++ (tq ++ (tf ++ r))) c := fun c => by
    rw [← e']; exact hierP1_total h0 he hr
  rcases eats_opt.1 hh with ⟨hp, rfl, h5⟩ | ⟨rfl, rfl, c, h5⟩
  · rcases eats_or.1 h5 with h6 | ⟨h6, -⟩
    · unfold hierP1 at h6
      obtain ⟨⟨a, p⟩, -, rfl⟩ := eats_map.1 (eats_attempt.1 h6)
      simp [Uri.authority]
    · obtain ⟨-, c', h7⟩ := fail_attempt.1 h6
      exact absurd h7 (nf c')
  · rw [List.nil_append] at nf
    rcases fail_or.1 h5 with ⟨-, h6⟩ | ⟨h6, -⟩
    · cases (fail_attempt.1 h6).1
    · obtain ⟨-, c', h7⟩ := fail_attempt.1 h6
      exact absurd h7 (nf c')

end OniComb.Uri
