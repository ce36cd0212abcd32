import Verif.Lemmas.UriIpv6Complete

/-!
# Helper lemmas for the URI parser: hosts, paths, queries and the whole
-/

namespace OniComb.Uri
open OniComb Rfc
variable {A B : Type} {t rest r : Bytes} {c : Committed} {std : Std}

/-! ### Host -/

instance : Good ipvFuture := by unfold ipvFuture; infer_instance
instance : Halts ipvFuture := by unfold ipvFuture; infer_instance

def FutureByte (b : UInt8) : Prop := RegByte b ∨ OneOf [':'] b

theorem regByte_ascii {b : UInt8} (h : RegByte b) : b.toNat < 128 := unit_regChar.ascii h

theorem eats_ipvFuture {v : Bytes} : Eats ipvFuture t v rest ↔
    v = t ∧ FutureText t ∧ ¬ Start FutureByte False rest := by
  have hf : UnitP _ FutureByte False := unit_futureChar
  unfold ipvFuture
  rw [eats_name, eats_text]
  have key : (∃ a, Eats (andThen (andThen (andThen (elm (byte 'v')) (many1 elmHexDigit)) (elm (byte '.')))
      (many1 (or (or unreserved subDelims) (collect (elm (byte ':')))))) t a rest) ↔
      FutureText t ∧ ¬ Start FutureByte False rest := by
    constructor
    · rintro ⟨⟨⟨⟨v, hs⟩, d⟩, vs⟩, h⟩
      obtain ⟨t1, t2, rfl, h1, h2⟩ := eats_andThen.1 h
      obtain ⟨t3, t4, rfl, h3, h4⟩ := eats_andThen.1 h1
      obtain ⟨rfl, -⟩ := eats_elm.1 h4
      obtain ⟨t5, t6, rfl, h5, h6⟩ := eats_andThen.1 h3
      obtain ⟨rfl, -⟩ := eats_elm.1 h5
      obtain ⟨h7, h8, -⟩ := unit_hex.eats_many1.1 ⟨_, h6⟩
      obtain ⟨h9, h10, h11⟩ := hf.eats_many1.1 ⟨_, h2⟩
      exact ⟨⟨t6, t2, by simp, h7, units_false.1 h8, h9, units_false.1 h10⟩, h11⟩
    · rintro ⟨⟨h, r, rfl, h7, h8, h9, h10⟩, h11⟩
      obtain ⟨vs, h12⟩ := hf.eats_many1.2 ⟨h9, units_false.2 h10, h11⟩
      obtain ⟨hs, h13⟩ := unit_hex.eats_many1.2 ⟨h7, units_false.2 h8,
        (start_cons (by decide) (by decide) : ¬ Start Hex False (byte '.' :: (r ++ rest)))⟩
      refine ⟨(((byte 'v', hs), byte '.'), vs), eats_andThen.2 ⟨byte 'v' :: (h ++ [byte '.']), r, by simp,
        eats_andThen.2 ⟨byte 'v' :: h, [byte '.'], by simp, eats_andThen.2 ⟨[byte 'v'], h, rfl,
          eats_elm.2 ⟨rfl, rfl⟩, ?_⟩, eats_elm.2 ⟨rfl, rfl⟩⟩, h12⟩⟩
      simpa using h13
  rw [key]
  have asc : FutureText t → fromUtf8 t = some t := by
    rintro ⟨h, r, rfl, h7, h8, h9, h10⟩
    refine fromUtf8_ascii _ fun b hb => ?_
    simp only [List.mem_cons, List.mem_append] at hb
    rcases hb with rfl | hb | rfl | hb
    · decide
    · exact hex_ascii (h8 b hb)
    · decide
    · exact hf.ascii (h10 b hb)
  constructor
  · rintro ⟨h1, h2, h3⟩
    rw [asc h2] at h1; cases h1; exact ⟨rfl, h2, h3⟩
  · rintro ⟨rfl, h2, h3⟩; exact ⟨asc h2, h2, h3⟩

instance : Good (ipLiteral std) := by unfold ipLiteral; infer_instance
instance : Halts (ipLiteral std) := by unfold ipLiteral; infer_instance

theorem ipLiteral_sound (hstd : StdOk std) {l : IpLiteral} (h : Eats (ipLiteral std) t l rest) :
    HostText (¬ SevenGroups ·) t (.ipLiteral l) := by
  unfold ipLiteral at h
  rw [eats_name] at h
  obtain ⟨t1, t2, w, rfl, h1, h2⟩ := eats_skipRight.1 h
  obtain ⟨rfl, -⟩ := eats_elm.1 h2
  obtain ⟨t3, t4, w, rfl, h3, h4⟩ := eats_skipLeft.1 h1
  obtain ⟨rfl, -⟩ := eats_elm.1 h3
  rcases eats_or.1 h4 with h5 | ⟨-, h5⟩
  · rw [eats_attempt] at h5
    obtain ⟨x, h6, rfl⟩ := eats_map.1 h5
    obtain ⟨x', h7, h8⟩ := ipv6Address_sound h6
    refine ⟨t4, rfl, ?_, ipv6Address_seven h6⟩
    rcases h8 with rfl | h8
    · exact h7
    · rw [hstd _ _ h7] at h8; cases h8; exact h7
  · obtain ⟨s, h6, rfl⟩ := eats_map.1 h5
    obtain ⟨rfl, h7, -⟩ := eats_ipvFuture.1 h6
    exact ⟨rfl, h7⟩

/-- No literal begins with another byte than a bracket. -/
theorem fail_ipLiteral (h : ∀ r', r ≠ byte '[' :: r') : Fail (ipLiteral std) r .uncommitted := by
  unfold ipLiteral
  exact fail_name.2 (fail_skipRight.2 (.inl (fail_skipLeft.2 (.inl (fail_elm.2 ⟨rfl, h⟩)))))

instance : Good regName := by unfold regName; infer_instance
instance : Halts regName := by unfold regName; infer_instance

theorem eats_regName {h : HostName} : Eats regName t h rest ↔
    h = .regName t ∧ t ≠ [] ∧ Enc RegByte t ∧ ¬ Start RegByte True rest := by
  unfold regName
  rw [eats_name, eats_map]
  simp only [unit_regChar.eats_text1, units_true]
  constructor
  · rintro ⟨v, ⟨rfl, h1, h2, h3⟩, rfl⟩; exact ⟨rfl, h1, h2, h3⟩
  · rintro ⟨rfl, h1, h2, h3⟩; exact ⟨t, ⟨rfl, h1, h2, h3⟩, rfl⟩

instance : Good (host std) := by unfold host; infer_instance
instance : Halts (host std) := by unfold host; infer_instance

theorem host_sound (hstd : StdOk std) {h : HostName} (he : Eats (host std) t h rest) :
    HostText (¬ SevenGroups ·) t h := by
  unfold host at he
  rw [eats_name] at he
  rcases eats_or.1 he with he | ⟨-, he⟩
  · rcases eats_or.1 he with he | ⟨-, he⟩
    · rw [eats_attempt] at he
      obtain ⟨l, h1, rfl⟩ := eats_map.1 he
      exact ipLiteral_sound hstd h1
    · rw [eats_attempt] at he
      obtain ⟨x, h1, rfl⟩ := eats_map.1 he
      exact (eats_ipv4Address.1 h1).1
  · obtain ⟨rfl, h1, h2, -⟩ := eats_regName.1 he
    exact ⟨rfl, h1, h2⟩

/-! ### Authority -/

instance : Good (authority std) := by unfold authority; infer_instance
instance : Halts (authority std) := by unfold authority; infer_instance

theorem authority_sound (hstd : StdOk std) {a : Authority} (h : Eats (authority std) t a rest) :
    AuthorityText (¬ SevenGroups ·) t a := by
  unfold authority at h
  obtain ⟨⟨⟨u, h'⟩, n⟩, h1, rfl⟩ := eats_map.1 h
  obtain ⟨t1, tp, rfl, h2, h3⟩ := eats_andThen.1 h1
  obtain ⟨tu, th, rfl, h4, h5⟩ := eats_andThen.1 h2
  refine ⟨tu, th, tp, rfl, ?_, host_sound hstd h5, ?_⟩
  · rcases eats_opt.1 h4 with ⟨w, rfl, h6⟩ | ⟨rfl, rfl, -⟩
    · exact ⟨tu, rfl, eats_userAt.1 h6⟩
    · rfl
  · rcases eats_opt.1 h3 with ⟨w, rfl, h6⟩ | ⟨rfl, rfl, -⟩
    · obtain ⟨ds, rfl, h7, h8, h9, h10, -⟩ := eats_colonPort.1 h6
      exact ⟨ds, rfl, h7, h8, h9, h10⟩
    · rfl

/-! ### Paths -/

instance : Good segment := by unfold segment; infer_instance
instance : Halts segment := by unfold segment; infer_instance
instance : Good segmentNz := by unfold segmentNz; infer_instance
instance : Halts segmentNz := by unfold segmentNz; infer_instance

theorem eats_segment {v : Bytes} : Eats segment t v rest ↔
    v = t ∧ Enc PcharByte t ∧ ¬ Start PcharByte True rest := by
  unfold segment
  rw [eats_name, eats_collect, unit_pchar.eats_many0, units_true]

theorem eats_segmentNz {v : Bytes} : Eats segmentNz t v rest ↔
    v = t ∧ t ≠ [] ∧ Enc PcharByte t ∧ ¬ Start PcharByte True rest := by
  unfold segmentNz
  rw [eats_name, eats_collect, unit_pchar.eats_many1, units_true]

theorem enc_ascii {P : UInt8 → Prop} (hP : ∀ {b}, P b → b.toNat < 128) (h : Enc P t) :
    ∀ b ∈ t, b.toNat < 128 := (units_true.2 h).ascii hP

theorem pchar_ascii {b : UInt8} (h : PcharByte b) : b.toNat < 128 := unit_pchar.ascii h

/-- `"/" segment` -/
theorem eats_slashSegment : (∃ v, Eats (andThen (elm (byte '/')) segment) t v rest) ↔
    SegmentPart t ∧ ¬ Start PcharByte True rest := by
  constructor
  · rintro ⟨⟨b, v⟩, h⟩
    obtain ⟨t1, t2, rfl, h1, h2⟩ := eats_andThen.1 h
    obtain ⟨rfl, -⟩ := eats_elm.1 h1
    obtain ⟨-, h3, h4⟩ := eats_segment.1 h2
    exact ⟨⟨t2, rfl, h3⟩, h4⟩
  · rintro ⟨⟨s, rfl, h1⟩, h2⟩
    exact ⟨(byte '/', s), eats_andThen.2 ⟨[byte '/'], s, rfl, eats_elm.2 ⟨rfl, rfl⟩,
      eats_segment.2 ⟨rfl, h1, h2⟩⟩⟩

theorem segmentPart_utf8 (h : SegmentPart t) : fromUtf8 t = some t := by
  obtain ⟨s, rfl, h⟩ := h
  refine fromUtf8_ascii _ fun b hb => ?_
  rcases List.mem_cons.1 hb with rfl | hb
  · decide
  · exact enc_ascii pchar_ascii h b hb

theorem eats_part {v : Bytes} : Eats (text (andThen (elm (byte '/')) segment)) t v rest ↔
    v = t ∧ SegmentPart t ∧ ¬ Start PcharByte True rest := by
  rw [eats_text, eats_slashSegment]
  constructor
  · rintro ⟨h1, h2, h3⟩; rw [segmentPart_utf8 h2] at h1; cases h1; exact ⟨rfl, h2, h3⟩
  · rintro ⟨rfl, h2, h3⟩; exact ⟨segmentPart_utf8 h2, h2, h3⟩

theorem eats_part' {v : Bytes} : Eats (collect (andThen (elm (byte '/')) segment)) t v rest ↔
    v = t ∧ SegmentPart t ∧ ¬ Start PcharByte True rest := by
  rw [eats_collect, eats_slashSegment]

theorem slash_not_pchar {r : Bytes} : ¬ Start PcharByte True (byte '/' :: r) := start_cons (by decide) (by decide)

/-- Both ways to read the parts of a path. -/
theorem many_parts {p : Parser UInt8 Bytes} (hp : ∀ {t v rest}, Eats p t v rest ↔
    v = t ∧ SegmentPart t ∧ ¬ Start PcharByte True rest) {vs : List Bytes} :
    Many p t vs rest ↔ t = vs.flatten ∧ (∀ s ∈ vs, SegmentPart s) ∧
      (vs ≠ [] → ¬ Start PcharByte True rest) := by
  constructor
  · intro h
    induction h with
    | nil => simp
    | @cons t t' rest v vs h1 h2 ih =>
      obtain ⟨rfl, h3, h4⟩ := hp.1 h1
      obtain ⟨rfl, h5, h6⟩ := ih
      refine ⟨rfl, fun s hs => ?_, fun _ => ?_⟩
      · rcases List.mem_cons.1 hs with rfl | hs
        · exact h3
        · exact h5 s hs
      · by_cases hv : vs = []
        · subst hv; simpa using h4
        · exact h6 hv
  · rintro ⟨rfl, h1, h2⟩
    induction vs with
    | nil => exact .nil _
    | cons v vs ih =>
      refine .cons (t := v) (hp.2 ⟨rfl, h1 v (by simp), ?_⟩) (ih (fun s hs => h1 s (by simp [hs]))
        fun _ => h2 (by simp))
      cases vs with
      | nil => simpa using h2 (by simp)
      | cons w vs =>
        obtain ⟨s, rfl, -⟩ := h1 w (by simp)
        exact slash_not_pchar

theorem not_part_iff {p : Parser UInt8 Bytes} [Good p] [hh : Halts p] (hp : ∀ {t v rest}, Eats p t v rest ↔
    v = t ∧ SegmentPart t ∧ ¬ Start PcharByte True rest) :
    (∃ c, Fail p r c) ↔ ∀ r', r ≠ byte '/' :: r' := by
  rw [fails_iff]
  constructor
  · rintro h r' rfl
    have hu : ∃ u v, r' = u ++ v ∧ Enc PcharByte u ∧ ¬ Start PcharByte True v := by
      rcases outcomes segment r' with ⟨t, v, rest, rfl, he⟩ | ⟨c, hc⟩ | hr
      · obtain ⟨-, h1, h2⟩ := eats_segment.1 he; exact ⟨t, rest, rfl, h1, h2⟩
      · unfold segment at hc
        exact absurd (fail_collect.1 (fail_name.1 hc)) fail_many0
      · exact absurd (Halts.out r') hr
    obtain ⟨u, v, rfl, h1, h2⟩ := hu
    exact h (byte '/' :: u) _ v rfl (hp.2 ⟨rfl, ⟨u, rfl, h1⟩, h2⟩)
  · rintro h t v rest rfl he
    obtain ⟨-, ⟨s, rfl, -⟩, -⟩ := hp.1 he
    exact h (s ++ rest) rfl

instance : Good (pathAbempty n) := by unfold pathAbempty; infer_instance
instance : Halts (pathAbempty n) := by
  unfold pathAbempty
  have : Halts (repeat_ (text (andThen (elm (byte '/')) segment)) (.from_ n)) :=
    ⟨fun r => ret_repeatSep (by rintro q ⟨⟩) _ rfl (fun r' _ => Halts.out r') (by rintro q ⟨⟩)
      (.inl fun t v rest _ he => by
        obtain ⟨-, ⟨s, rfl, -⟩, -⟩ := eats_part.1 he; simp)⟩
  infer_instance

theorem eats_pathAbempty0 {p : Path} : Eats (pathAbempty 0) t p rest ↔
    ∃ ps, p = .abempty ps ∧ PathText t p ∧ (ps ≠ [] → ¬ Start PcharByte True rest) ∧
      ∀ r', rest ≠ byte '/' :: r' := by
  unfold pathAbempty
  rw [eats_name, eats_map]
  have e : ∀ vs, Eats (repeat_ (text (andThen (elm (byte '/')) segment)) (.from_ 0)) t vs rest ↔ _ :=
    fun vs => eats_many0
  simp only [e, many_parts eats_part, not_part_iff eats_part]
  constructor
  · rintro ⟨vs, ⟨⟨h1, h2, h3⟩, h4⟩, rfl⟩; exact ⟨vs, rfl, ⟨h1, h2⟩, h3, h4⟩
  · rintro ⟨ps, rfl, ⟨h1, h2⟩, h3, h4⟩; exact ⟨ps, ⟨⟨h1, h2, h3⟩, h4⟩, rfl⟩

theorem eats_pathAbempty1 {p : Path} : Eats (pathAbempty 1) t p rest ↔
    ∃ ps, p = .abempty ps ∧ ps ≠ [] ∧ PathText t p ∧ ¬ Start PcharByte True rest ∧
      ∀ r', rest ≠ byte '/' :: r' := by
  unfold pathAbempty
  rw [eats_name, eats_map]
  have e : ∀ vs, Eats (repeat_ (text (andThen (elm (byte '/')) segment)) (.from_ 1)) t vs rest ↔ _ :=
    fun vs => eats_many1
  simp only [e, many_parts eats_part, not_part_iff eats_part]
  constructor
  · rintro ⟨vs, ⟨h0, ⟨h1, h2, h3⟩, h4⟩, rfl⟩; exact ⟨vs, rfl, h0, ⟨h1, h2⟩, h3 h0, h4⟩
  · rintro ⟨ps, rfl, h0, ⟨h1, h2⟩, h3, h4⟩; exact ⟨ps, ⟨h0, ⟨h1, h2, fun _ => h3⟩, h4⟩, rfl⟩

theorem mapM_utf8 : ∀ (l : List Bytes), (∀ s ∈ l, fromUtf8 s = some s) → l.mapM fromUtf8 = some l := by
  intro l h
  induction l with
  | nil => rfl
  | cons s l ih =>
    rw [List.mapM_cons, h s (by simp), ih fun x hx => h x (by simp [hx])]
    rfl

theorem eats_rootlessParts {v : List Bytes} :
    Eats (map (andThen segmentNz (many0 (collect (andThen (elm (byte '/')) segment)))) fun x => x.1 :: x.2)
      t v rest ↔ PathText t (.rootless v) ∧ ¬ Start PcharByte True rest ∧ ∀ r', rest ≠ byte '/' :: r' := by
  rw [eats_map]
  constructor
  · rintro ⟨⟨s, ss⟩, h, rfl⟩
    obtain ⟨t1, t2, rfl, h1, h2⟩ := eats_andThen.1 h
    obtain ⟨rfl, h3, h4, h5⟩ := eats_segmentNz.1 h1
    obtain ⟨h6, h7⟩ := eats_many0.1 h2
    obtain ⟨rfl, h8, h9⟩ := (many_parts eats_part').1 h6
    refine ⟨⟨rfl, s, ss, rfl, h3, h4, h8⟩, ?_, (not_part_iff eats_part').1 h7⟩
    by_cases hs : ss = []
    · subst hs; simpa using h5
    · exact h9 hs
  · rintro ⟨⟨rfl, s, ss, rfl, h3, h4, h8⟩, h5, h7⟩
    refine ⟨(s, ss), eats_andThen.2 ⟨s, ss.flatten, rfl, eats_segmentNz.2 ⟨rfl, h3, h4, ?_⟩,
      eats_many0.2 ⟨(many_parts eats_part').2 ⟨rfl, h8, fun _ => h5⟩, (not_part_iff eats_part').2 h7⟩⟩, rfl⟩
    cases ss with
    | nil => simpa using h5
    | cons w ss =>
      obtain ⟨x, rfl, -⟩ := h8 w (by simp)
      exact slash_not_pchar

theorem rootless_utf8 {v : List Bytes} (h : PathText t (.rootless v)) : v.mapM fromUtf8 = some v := by
  obtain ⟨-, s, ss, rfl, h3, h4, h8⟩ := h
  refine mapM_utf8 _ fun x hx => ?_
  rcases List.mem_cons.1 hx with rfl | hx
  · exact fromUtf8_ascii _ (enc_ascii pchar_ascii h4)
  · exact segmentPart_utf8 (h8 x hx)

instance good_pathRootless : Good pathRootless := by
  unfold pathRootless
  have := good_mapUnwrap (p := map (andThen segmentNz (many0 (collect (andThen (elm (byte '/')) segment))))
    fun x => x.1 :: x.2) (f := fun e => e.mapM fromUtf8) (by
      intro t v rest h
      rw [rootless_utf8 (eats_rootlessParts.1 h).1]; rfl)
  infer_instance
instance : Halts pathRootless := by unfold pathRootless; infer_instance

theorem eats_pathRootless {p : Path} : Eats pathRootless t p rest ↔
    ∃ ps, p = .rootless ps ∧ PathText t p ∧ ¬ Start PcharByte True rest ∧ ∀ r', rest ≠ byte '/' :: r' := by
  unfold pathRootless
  rw [eats_name, eats_map]
  simp only [eats_mapUnwrap, eats_rootlessParts]
  constructor
  · rintro ⟨v, ⟨w, ⟨h1, h2, h3⟩, h4⟩, rfl⟩
    rw [rootless_utf8 h1] at h4; cases h4
    exact ⟨_, rfl, h1, h2, h3⟩
  · rintro ⟨ps, rfl, h1, h2, h3⟩
    exact ⟨ps, ⟨ps, ⟨h1, h2, h3⟩, rootless_utf8 h1⟩, rfl⟩

/-! ### Hierarchical part -/

def hierP1 (std : Std) : Parser UInt8 HierPart :=
  map (andThen (skipLeft (seq (bytes "//")) (authority std)) (pathAbempty 0)) fun x => HierPart.mk (some x.1) x.2

def hierP2 : Parser UInt8 HierPart :=
  map (or (attempt (pathAbempty 1)) pathRootless) fun e => HierPart.mk none e

theorem hierPart_eq : hierPart std = opt (or (attempt (hierP1 std)) hierP2) := rfl

instance : Good (hierP1 std) := by unfold hierP1; infer_instance
instance : Halts (hierP1 std) := by unfold hierP1; infer_instance
instance : Good hierP2 := by unfold hierP2; infer_instance
instance : Halts hierP2 := by unfold hierP2; infer_instance
instance : Good (hierPart std) := by rw [hierPart_eq]; infer_instance
instance : Halts (hierPart std) := by rw [hierPart_eq]; infer_instance

theorem hierPart_sound (hstd : StdOk std) {h : Option HierPart} (he : Eats (hierPart std) t h rest) :
    OptText [] (HierText (¬ SevenGroups ·)) t h := by
  rw [hierPart_eq] at he
  rcases eats_opt.1 he with ⟨w, rfl, h1⟩ | ⟨rfl, rfl, -⟩
  · refine ⟨t, rfl, ?_⟩
    rcases eats_or.1 h1 with h2 | ⟨-, h2⟩
    · rw [eats_attempt] at h2
      unfold hierP1 at h2
      obtain ⟨⟨a, p⟩, h3, rfl⟩ := eats_map.1 h2
      obtain ⟨t1, tp, rfl, h4, h5⟩ := eats_andThen.1 h3
      obtain ⟨t2, ta, w, rfl, h6, h7⟩ := eats_skipLeft.1 h4
      obtain ⟨rfl, -⟩ := eats_seq.1 h6
      obtain ⟨ps, rfl, h8, -⟩ := eats_pathAbempty0.1 h5
      exact ⟨_, tp, rfl, ⟨ta, rfl, authority_sound hstd h7⟩, h8, fun _ => ⟨ps, rfl⟩, by rintro ⟨⟩⟩
    · unfold hierP2 at h2
      obtain ⟨p, h3, rfl⟩ := eats_map.1 h2
      rcases eats_or.1 h3 with h4 | ⟨-, h4⟩
      · rw [eats_attempt] at h4
        obtain ⟨ps, rfl, h5, h6, -⟩ := eats_pathAbempty1.1 h4
        exact ⟨[], t, rfl, rfl, h6, by rintro ⟨⟩, fun _ => h5⟩
      · obtain ⟨ps, rfl, h5, -⟩ := eats_pathRootless.1 h4
        refine ⟨[], t, rfl, rfl, h5, by rintro ⟨⟩, fun _ => ?_⟩
        obtain ⟨-, s, ss, rfl, -⟩ := h5
        simp [Path.parts]
  · rfl

/-! ### Query and fragment -/

instance : Good codePoint := by unfold codePoint; infer_instance
instance : Halts codePoint := by unfold codePoint; infer_instance
instance : Good keyValues := by unfold keyValues; infer_instance
instance : Halts keyValues := by unfold keyValues; infer_instance
instance : Good query := by unfold query; infer_instance
instance : Halts query := by unfold query; infer_instance
instance : Good fragment := by unfold fragment; infer_instance
instance : Halts fragment := by unfold fragment; infer_instance

theorem eats_codePoint {v : Bytes} : Eats codePoint t v rest ↔
    v = t ∧ Enc QueryByte t ∧ ¬ Start QueryByte True rest := by
  unfold codePoint
  rw [unit_queryChar.eats_text0, units_true]

theorem eats_fragment {v : Bytes} : Eats fragment t v rest ↔
    v = t ∧ Enc FragByte t ∧ ¬ Start FragByte True rest := by
  unfold fragment
  rw [eats_name, unit_fragChar.eats_text0, units_true]

theorem codePoint_total (r : Bytes) : ∃ u v, r = u ++ v ∧ Eats codePoint u u v := by
  rcases outcomes codePoint r with ⟨t, v, rest, rfl, he⟩ | ⟨c, hc⟩ | hr
  · obtain ⟨rfl, h1, h2⟩ := eats_codePoint.1 he; exact ⟨v, rest, rfl, he⟩
  · exfalso
    unfold codePoint text at hc
    rcases fail_mapRes.1 hc with hc | ⟨-, t, v, rest, rfl, h1, h2⟩
    · exact fail_many0 (fail_collect.1 (fail_map.1 hc))
    · obtain ⟨v, h3, rfl⟩ := eats_map.1 h1
      obtain ⟨rfl, a, h4⟩ := eats_collect.1 h3
      have := unit_queryChar.eats_many0.1 ⟨a, h4⟩
      rw [fromUtf8_ascii _ (this.1.ascii unit_queryChar.ascii)] at h2
      cases h2
  · exact absurd (Halts.out r) hr

theorem eats_eqValue {v : Bytes} : Eats (skipLeft (elm (byte '=')) codePoint) t v rest ↔
    t = byte '=' :: v ∧ Enc QueryByte v ∧ ¬ Start QueryByte True rest := by
  rw [eats_skipLeft]
  constructor
  · rintro ⟨t1, t2, w, rfl, h1, h2⟩
    obtain ⟨rfl, -⟩ := eats_elm.1 h1
    obtain ⟨rfl, h3, h4⟩ := eats_codePoint.1 h2
    exact ⟨rfl, h3, h4⟩
  · rintro ⟨rfl, h3, h4⟩
    exact ⟨[byte '='], v, _, rfl, eats_elm.2 ⟨rfl, rfl⟩, eats_codePoint.2 ⟨rfl, h3, h4⟩⟩

theorem eq_not_query {r : Bytes} : ¬ Start QueryByte True (byte '=' :: r) := start_cons (by decide) (by decide)
theorem amp_not_query {r : Bytes} : ¬ Start QueryByte True (byte '&' :: r) := start_cons (by decide) (by decide)

theorem eats_keyValues {kv : Bytes × Option Bytes} : Eats keyValues t kv rest ↔
    t = pairText kv ∧ PairOk kv ∧ ¬ Start QueryByte True rest ∧
      (kv.2 = none → ∀ r', rest ≠ byte '=' :: r') := by
  obtain ⟨k, o⟩ := kv
  unfold keyValues
  rw [eats_andThen]
  constructor
  · rintro ⟨t1, t2, rfl, h1, h2⟩
    obtain ⟨rfl, h3, h4⟩ := eats_codePoint.1 h1
    rcases eats_opt.1 h2 with ⟨w, rfl, h5⟩ | ⟨rfl, rfl, c, h5⟩
    · obtain ⟨rfl, h6, h7⟩ := eats_eqValue.1 h5
      exact ⟨rfl, ⟨h3, by rintro v ⟨⟩; exact h6⟩, h7, by rintro ⟨⟩⟩
    · refine ⟨by simp [pairText], ⟨h3, by rintro v ⟨⟩⟩, h4, ?_⟩
      rintro - r' rfl
      obtain ⟨u, v, rfl, h6⟩ := codePoint_total r'
      exact not_eats_fail (t := byte '=' :: u) (eats_eqValue.2 ⟨rfl, (eats_codePoint.1 h6).2⟩) h5
  · rintro ⟨rfl, ⟨h3, h6⟩, h7, h8⟩
    cases o with
    | none =>
      refine ⟨k, [], by simp [pairText], eats_codePoint.2 ⟨rfl, h3, h7⟩, eats_opt.2 (.inr ⟨rfl, rfl, ?_⟩)⟩
      exact ⟨_, fail_skipLeft.2 (.inl (fail_elm.2 ⟨rfl, h8 rfl⟩))⟩
    | some v =>
      exact ⟨k, byte '=' :: v, rfl, eats_codePoint.2 ⟨rfl, h3, eq_not_query⟩,
        eats_opt.2 (.inl ⟨v, rfl, eats_eqValue.2 ⟨rfl, h6 v rfl, h7⟩⟩)⟩

/-- `"&" key [ "=" value ]` fails only where there is no ampersand. -/
theorem fail_amp : (∃ c, Fail (skipLeft (elm (byte '&')) keyValues) r c) ↔ ∀ r', r ≠ byte '&' :: r' := by
  rw [fails_iff]
  constructor
  · rintro h r' rfl
    have : ∃ t v rest, r' = t ++ rest ∧ Eats keyValues t v rest := by
      obtain ⟨u, v, rfl, h1⟩ := codePoint_total r'
      by_cases he : ∃ w, v = byte '=' :: w
      · obtain ⟨w, rfl⟩ := he
        obtain ⟨x, y, rfl, h2⟩ := codePoint_total w
        refine ⟨u ++ byte '=' :: x, (u, some x), y, by simp, eats_keyValues.2 ⟨rfl, ⟨(eats_codePoint.1 h1).2.1, ?_⟩,
          (eats_codePoint.1 h2).2.2, by rintro ⟨⟩⟩⟩
        rintro v ⟨⟩; exact (eats_codePoint.1 h2).2.1
      · exact ⟨u, (u, none), v, rfl, eats_keyValues.2 ⟨rfl, ⟨(eats_codePoint.1 h1).2.1, by rintro v ⟨⟩⟩,
          (eats_codePoint.1 h1).2.2, fun _ r' h => he ⟨r', h⟩⟩⟩
    obtain ⟨t, v, rest, rfl, h1⟩ := this
    exact h (byte '&' :: t) v rest rfl (eats_skipLeft.2 ⟨[byte '&'], t, _, rfl, eats_elm.2 ⟨rfl, rfl⟩, h1⟩)
  · rintro h t v rest rfl he
    obtain ⟨t1, t2, w, rfl, h1, -⟩ := eats_skipLeft.1 he
    obtain ⟨rfl, -⟩ := eats_elm.1 h1
    exact h (t2 ++ rest) rfl

theorem join_cons (sep x : Bytes) (xs : List Bytes) :
    join sep (x :: xs) = x ++ (xs.map fun y => sep ++ y).flatten := by
  induction xs generalizing x with
  | nil => simp [join]
  | cons y ys ih => rw [join, ih]; simp; simp

/-- What must follow the last pair of a query. -/
def QueryStop (q : Query) (rest : Bytes) : Prop :=
  ¬ Start QueryByte True rest ∧ (∀ r', rest ≠ byte '&' :: r') ∧
    ∀ kv, q.params.getLast? = some kv → kv.2 = none → ∀ r', rest ≠ byte '=' :: r'

theorem many_amp {kvs : List (Bytes × Option Bytes)} : Many (skipLeft (elm (byte '&')) keyValues) t kvs rest ↔
    t = (kvs.map fun kv => byte '&' :: pairText kv).flatten ∧ (∀ kv ∈ kvs, PairOk kv) ∧
      (kvs ≠ [] → ¬ Start QueryByte True rest) ∧
      ∀ kv, kvs.getLast? = some kv → kv.2 = none → ∀ r', rest ≠ byte '=' :: r' := by
  have he : ∀ {t kv rest}, Eats (skipLeft (elm (byte '&')) keyValues) t kv rest ↔
      t = byte '&' :: pairText kv ∧ PairOk kv ∧ ¬ Start QueryByte True rest ∧
      (kv.2 = none → ∀ r', rest ≠ byte '=' :: r') := by
    intro t kv rest
    rw [eats_skipLeft]
    constructor
    · rintro ⟨t1, t2, w, rfl, h1, h2⟩
      obtain ⟨rfl, -⟩ := eats_elm.1 h1
      obtain ⟨rfl, h3⟩ := eats_keyValues.1 h2
      exact ⟨rfl, h3⟩
    · rintro ⟨rfl, h3⟩
      exact ⟨[byte '&'], _, _, rfl, eats_elm.2 ⟨rfl, rfl⟩, eats_keyValues.2 ⟨rfl, h3⟩⟩
  constructor
  · intro h
    induction h with
    | nil => simp
    | @cons t t' rest v vs h1 h2 ih =>
      obtain ⟨rfl, h3, h4, h5⟩ := he.1 h1
      obtain ⟨rfl, h6, h7, h8⟩ := ih
      refine ⟨rfl, fun s hs => ?_, fun _ => ?_, ?_⟩
      · rcases List.mem_cons.1 hs with rfl | hs
        · exact h3
        · exact h6 s hs
      · by_cases hv : vs = []
        · subst hv; simpa using h4
        · exact h7 hv
      · by_cases hv : vs = []
        · subst hv; intro kv hkv; cases hkv; simpa using h5
        · intro kv hkv
          rw [List.getLast?_cons_of_ne_nil hv] at hkv
          exact h8 kv hkv
  · rintro ⟨rfl, h1, h2, h3⟩
    induction kvs with
    | nil => exact .nil _
    | cons v vs ih =>
      refine .cons (t := byte '&' :: pairText v) (he.2 ⟨rfl, h1 v (by simp), ?_⟩)
        (ih (fun s hs => h1 s (by simp [hs])) (fun _ => h2 (by simp)) ?_)
      · cases vs with
        | nil =>
          refine ⟨by simpa using h2 (by simp), ?_⟩
          simpa using h3 v rfl
        | cons w vs =>
          refine ⟨amp_not_query, fun _ r' h => ?_⟩
          have := (List.cons.inj h).1
          revert this; decide
      · intro kv hkv
        refine h3 kv ?_
        cases vs with
        | nil => cases hkv
        | cons w vs => rw [List.getLast?_cons_of_ne_nil (by simp)]; exact hkv

theorem eats_query {q : Query} : Eats query t q rest ↔ QueryText t q ∧ QueryStop q rest := by
  obtain ⟨ps⟩ := q
  unfold query
  rw [eats_map]
  constructor
  · rintro ⟨⟨kv, kvs⟩, h, he⟩
    cases he
    obtain ⟨t1, t2, rfl, h1, h2⟩ := eats_andThen.1 h
    obtain ⟨rfl, h3, h4, h5⟩ := eats_keyValues.1 h1
    obtain ⟨h6, h7⟩ := eats_many0.1 h2
    obtain ⟨rfl, h8, h9, h10⟩ := many_amp.1 h6
    refine ⟨⟨?_, by simp, ?_⟩, ?_, fail_amp.1 h7, ?_⟩
    · simp [Query.show, join_cons]; rfl
    · intro s hs
      rcases List.mem_cons.1 hs with rfl | hs
      · exact h3
      · exact h8 s hs
    · by_cases hv : kvs = []
      · subst hv; simpa using h4
      · exact h9 hv
    · by_cases hv : kvs = []
      · subst hv; intro kv' hkv; cases hkv; simpa using h5
      · intro kv' hkv
        rw [List.getLast?_cons_of_ne_nil hv] at hkv
        exact h10 kv' hkv
  · rintro ⟨⟨rfl, h0, h1⟩, h2, h3, h4⟩
    cases ps with
    | nil => exact absurd rfl h0
    | cons kv kvs =>
      refine ⟨(kv, kvs), eats_andThen.2 ⟨pairText kv, (kvs.map fun kv => byte '&' :: pairText kv).flatten, ?_,
        eats_keyValues.2 ⟨rfl, h1 kv (by simp), ?_⟩, eats_many0.2 ⟨many_amp.2 ⟨rfl,
          fun s hs => h1 s (by simp [hs]), fun _ => h2, ?_⟩, fail_amp.2 h3⟩⟩, rfl⟩
      · simp [Query.show, join_cons]; rfl
      · cases kvs with
        | nil => exact ⟨by simpa using h2, by simpa using h4 kv rfl⟩
        | cons w vs =>
          refine ⟨amp_not_query, fun _ r' h => ?_⟩
          have := (List.cons.inj h).1
          revert this; decide
      · intro kv' hkv
        refine h4 kv' ?_
        cases kvs with
        | nil => cases hkv
        | cons w vs => show List.getLast? (kv :: w :: vs) = _; rw [List.getLast?_cons_of_ne_nil (by simp)]; exact hkv

/-! ### The whole -/

instance : Good (uri std) := by unfold uri; infer_instance
instance : Halts (uri std) := by unfold uri; infer_instance

theorem uri_sound (hstd : StdOk std) {u : Uri} (h : Eats (uri std) t u rest) :
    UriText (¬ SevenGroups ·) t u := by
  unfold uri at h
  obtain ⟨⟨⟨⟨s, hi⟩, q⟩, f⟩, h1, rfl⟩ := eats_map.1 h
  obtain ⟨t1, tf, rfl, h2, hf⟩ := eats_andThen.1 h1
  obtain ⟨t2, tq, rfl, h3, hq⟩ := eats_andThen.1 h2
  obtain ⟨t3, th, rfl, h4, hh⟩ := eats_andThen.1 h3
  obtain ⟨ts, tc, w, rfl, hs, hc⟩ := eats_skipRight.1 h4
  obtain ⟨rfl, -⟩ := eats_elm.1 hc
  refine ⟨ts, th, tq, tf, rfl, ?_, hierPart_sound hstd hh, ?_, ?_⟩
  · rcases eats_opt.1 hs with ⟨w, rfl, h6⟩ | ⟨rfl, rfl, -⟩
    · obtain ⟨rfl, h7, -⟩ := eats_scheme.1 h6
      exact ⟨w, rfl, rfl, h7⟩
    · rfl
  · rcases eats_opt.1 hq with ⟨w, rfl, h6⟩ | ⟨rfl, rfl, -⟩
    · obtain ⟨t5, t6, w', rfl, h7, h8⟩ := eats_skipLeft.1 h6
      obtain ⟨rfl, -⟩ := eats_elm.1 h7
      exact ⟨t6, rfl, (eats_query.1 h8).1⟩
    · rfl
  · rcases eats_opt.1 hf with ⟨w, rfl, h6⟩ | ⟨rfl, rfl, -⟩
    · obtain ⟨t5, t6, w', rfl, h7, h8⟩ := eats_skipLeft.1 h6
      obtain ⟨rfl, -⟩ := eats_elm.1 h7
      obtain ⟨rfl, h9, -⟩ := eats_fragment.1 h8
      exact ⟨w, rfl, rfl, h9⟩
    · rfl

end OniComb.Uri
