import Verif.Model.UriPath
import Verif.Spec.UriPath
import Verif.Props.Uri

/-!
# Properties of the path parsers of the `uri` crate (C121)
-/

namespace OniComb.Uri
open OniComb Rfc

variable {t rest : Bytes}

/-! ### Helper lemmas -/

theorem unit_ncChar : UnitP (or (or (or unreserved pctEncoded) subDelims) (collect (elm (byte '@')))) NcByte True := by
  refine (((unit_unreserved.or unit_pctEncoded).or unit_subDelims).or
    (UnitP.collect (unit_elm '@' (by decide)))).to (fun b => ?_) (by simp)
  simp [NcByte, RegByte]

instance : Good (or (or (or unreserved pctEncoded) subDelims) (collect (elm (byte '@')))) := unit_ncChar.good
instance : Halts (many1 (or (or (or unreserved pctEncoded) subDelims) (collect (elm (byte '@'))))) := unit_ncChar.halts1
instance : Good segmentNzNc := by unfold segmentNzNc; infer_instance
instance : Halts segmentNzNc := by unfold segmentNzNc; infer_instance

theorem eats_segmentNzNc {v : Bytes} : Eats segmentNzNc t v rest ↔
    v = t ∧ t ≠ [] ∧ Enc NcByte t ∧ ¬ Start NcByte True rest := by
  unfold segmentNzNc
  rw [eats_name, eats_collect, unit_ncChar.eats_many1, units_true]

theorem nc_ascii {b : UInt8} (h : NcByte b) : b.toNat < 128 := unit_ncChar.ascii h

theorem nc_pchar {b : UInt8} (h : NcByte b) : PcharByte b := by
  rcases h with h | h
  · exact .inl h
  · refine .inr ?_
    unfold OneOf at h ⊢
    simp at h
    simp [h]

theorem Enc.mono {P Q : UInt8 → Prop} (hPQ : ∀ {b}, P b → Q b) (h : Enc P t) : Enc Q t := by
  induction h with
  | nil => exact .nil
  | byte b t hb _ ih => exact .byte b t (hPQ hb) ih
  | pct a b t ha hb _ ih => exact .pct a b t ha hb ih

/-- The parts of a path that begins with a segment without a colon. -/
theorem eats_noschemeParts {v : List Bytes} :
    Eats (map (andThen segmentNzNc (many0 (collect (andThen (elm (byte '/')) segment)))) fun x => x.1 :: x.2)
      t v rest ↔ ∃ s ss, v = s :: ss ∧ t = v.flatten ∧ s ≠ [] ∧ Enc NcByte s ∧ (∀ s ∈ ss, SegmentPart s) ∧
        (ss = [] → ¬ Start NcByte True rest) ∧ (ss ≠ [] → ¬ Start PcharByte True rest) ∧
        ∀ r', rest ≠ byte '/' :: r' := by
  rw [eats_map]
  constructor
  · rintro ⟨⟨s, ss⟩, h, rfl⟩
    obtain ⟨t1, t2, rfl, h1, h2⟩ := eats_andThen.1 h
    obtain ⟨rfl, h3, h4, h5⟩ := eats_segmentNzNc.1 h1
    obtain ⟨h6, h7⟩ := eats_many0.1 h2
    obtain ⟨rfl, h8, h9⟩ := (many_parts eats_part').1 h6
    refine ⟨s, ss, rfl, rfl, h3, h4, h8, ?_, h9, (not_part_iff eats_part').1 h7⟩
    intro hs
    subst hs; simpa using h5
  · rintro ⟨s, ss, rfl, rfl, h3, h4, h8, h5, h6, h7⟩
    refine ⟨(s, ss), eats_andThen.2 ⟨s, ss.flatten, rfl, eats_segmentNzNc.2 ⟨rfl, h3, h4, ?_⟩,
      eats_many0.2 ⟨(many_parts eats_part').2 ⟨rfl, h8, h6⟩, (not_part_iff eats_part').2 h7⟩⟩, rfl⟩
    cases ss with
    | nil => simpa using h5 rfl
    | cons w ss =>
      obtain ⟨x, rfl, -⟩ := h8 w (by simp)
      exact start_cons (by decide) (by decide)

theorem noscheme_utf8 {s : Bytes} {ss : List Bytes} (h : Enc NcByte s) (h' : ∀ s ∈ ss, SegmentPart s) :
    (s :: ss).mapM fromUtf8 = some (s :: ss) := by
  refine mapM_utf8 _ fun x hx => ?_
  rcases List.mem_cons.1 hx with rfl | hx
  · exact fromUtf8_ascii _ (enc_ascii nc_ascii h)
  · exact segmentPart_utf8 (h' x hx)

instance good_pathNoscheme : Good pathNoscheme := by
  unfold pathNoscheme
  have := good_mapUnwrap (p := map (andThen segmentNzNc (many0 (collect (andThen (elm (byte '/')) segment))))
    fun x => x.1 :: x.2) (f := fun e => e.mapM fromUtf8) (by
      intro t v rest h
      obtain ⟨s, ss, rfl, -, -, h1, h2, -⟩ := eats_noschemeParts.1 h
      rw [noscheme_utf8 h1 h2]; rfl)
  infer_instance
instance : Halts pathNoscheme := by unfold pathNoscheme; infer_instance

theorem eats_pathNoscheme {p : Path} : Eats pathNoscheme t p rest ↔
    ∃ s ss, p = .rootless (s :: ss) ∧ t = s ++ ss.flatten ∧ s ≠ [] ∧ Enc NcByte s ∧ (∀ s ∈ ss, SegmentPart s) ∧
        (ss = [] → ¬ Start NcByte True rest) ∧ (ss ≠ [] → ¬ Start PcharByte True rest) ∧
        ∀ r', rest ≠ byte '/' :: r' := by
  unfold pathNoscheme
  rw [eats_name, eats_map]
  simp only [eats_mapUnwrap, eats_noschemeParts]
  constructor
  · rintro ⟨v, ⟨w, ⟨s, ss, rfl, h1, h2, h3, h4, h5⟩, h6⟩, rfl⟩
    rw [noscheme_utf8 h3 h4] at h6; cases h6
    exact ⟨s, ss, rfl, by simpa using h1, h2, h3, h4, h5⟩
  · rintro ⟨s, ss, rfl, h1, h2, h3, h4, h5⟩
    exact ⟨s :: ss, ⟨s :: ss, ⟨s, ss, rfl, by simpa using h1, h2, h3, h4, h5⟩, noscheme_utf8 h3 h4⟩, rfl⟩

/-- The parts of a path that begins with a slash. -/
theorem eats_absoluteParts {v : List Bytes} :
    Eats (map (andThen (collect (elm (byte '/'))) (opt (map (andThen segmentNz (many0 (collect (andThen (elm (byte '/'))
      segment)))) fun x => x.1 :: x.2))) absoluteParts) t v rest ↔
      (v = [[byte '/']] ∧ t = [byte '/'] ∧ ¬ Start PcharByte True rest) ∨
      ∃ ps t', v = [byte '/'] :: ps ∧ t = byte '/' :: t' ∧ PathText t' (.rootless ps) ∧ ¬ Start PcharByte True rest ∧
        ∀ r', rest ≠ byte '/' :: r' := by
  have nstart : (∃ c, Fail (map (andThen segmentNz (many0 (collect (andThen (elm (byte '/'))
      segment)))) fun x => x.1 :: x.2) rest c) ↔ ¬ Start PcharByte True rest := by
    have e : (∃ c, Fail segmentNz rest c) ↔ ¬ Start PcharByte True rest := by
      rw [← unit_pchar.fails]
      unfold segmentNz
      simp only [fail_name, fail_collect]
      simp only [fail_many1]
      exact ⟨fun ⟨_, _, h⟩ => h, fun h => ⟨_, rfl, h⟩⟩
    rw [← e]
    simp only [fail_map, fail_andThen]
    constructor
    · rintro ⟨c, h | ⟨_, _, _, -, -, h⟩⟩
      · exact ⟨c, h⟩
      · exact absurd h fail_many0
    · rintro ⟨c, h⟩; exact ⟨c, .inl h⟩
  rw [eats_map]
  constructor
  · rintro ⟨⟨a, o⟩, h, rfl⟩
    obtain ⟨t1, t2, rfl, h1, h2⟩ := eats_andThen.1 h
    obtain ⟨rfl, b, h1⟩ := eats_collect.1 h1
    obtain ⟨rfl, -⟩ := eats_elm.1 h1
    rcases eats_opt.1 h2 with ⟨w, rfl, h3⟩ | ⟨rfl, rfl, h3⟩
    · obtain ⟨h4, h5, h6⟩ := eats_rootlessParts.1 h3
      exact .inr ⟨w, t2, rfl, rfl, h4, h5, h6⟩
    · exact .inl ⟨rfl, rfl, nstart.1 h3⟩
  · rintro (⟨rfl, rfl, h⟩ | ⟨ps, t', rfl, rfl, h4, h5, h6⟩)
    · exact ⟨([byte '/'], none), eats_andThen.2 ⟨[byte '/'], [], rfl, eats_collect.2 ⟨rfl, _, eats_elm.2 ⟨rfl, rfl⟩⟩,
        eats_opt.2 (.inr ⟨rfl, rfl, nstart.2 h⟩)⟩, rfl⟩
    · exact ⟨([byte '/'], some ps), eats_andThen.2 ⟨[byte '/'], t', rfl, eats_collect.2 ⟨rfl, _, eats_elm.2 ⟨rfl, rfl⟩⟩,
        eats_opt.2 (.inl ⟨ps, rfl, eats_rootlessParts.2 ⟨h4, h5, h6⟩⟩)⟩, rfl⟩

theorem absolute_utf8 {ps : List Bytes} (h : PathText t (.rootless ps)) :
    ([byte '/'] :: ps).mapM fromUtf8 = some ([byte '/'] :: ps) := by
  obtain ⟨-, s, ss, rfl, h3, h4, h8⟩ := h
  refine mapM_utf8 _ fun x hx => ?_
  rcases List.mem_cons.1 hx with rfl | hx
  · exact fromUtf8_ascii _ (by decide)
  · rcases List.mem_cons.1 hx with rfl | hx
    · exact fromUtf8_ascii _ (enc_ascii pchar_ascii h4)
    · exact segmentPart_utf8 (h8 x hx)

theorem slash_utf8 : [[byte '/']].mapM fromUtf8 = some [[byte '/']] :=
  mapM_utf8 _ fun x hx => by
    rw [List.mem_singleton] at hx; subst hx; exact fromUtf8_ascii _ (by decide)

instance good_pathAbsolute : Good pathAbsolute := by
  unfold pathAbsolute
  have := good_mapUnwrap (p := map (andThen (collect (elm (byte '/'))) (opt (map (andThen segmentNz (many0 (collect
    (andThen (elm (byte '/')) segment)))) fun x => x.1 :: x.2))) absoluteParts) (f := fun e => e.mapM fromUtf8) (by
      intro t v rest h
      rcases eats_absoluteParts.1 h with ⟨rfl, -⟩ | ⟨ps, t', rfl, -, h1, -⟩
      · rw [slash_utf8]; rfl
      · rw [absolute_utf8 h1]; rfl)
  infer_instance
instance : Halts pathAbsolute := by unfold pathAbsolute; infer_instance

theorem eats_pathAbsolute {p : Path} : Eats pathAbsolute t p rest ↔
      (p = .absolute [[byte '/']] ∧ t = [byte '/'] ∧ ¬ Start PcharByte True rest) ∨
      ∃ ps t', p = .absolute ([byte '/'] :: ps) ∧ t = byte '/' :: t' ∧ PathText t' (.rootless ps) ∧
        ¬ Start PcharByte True rest ∧ ∀ r', rest ≠ byte '/' :: r' := by
  unfold pathAbsolute
  rw [eats_name, eats_map]
  simp only [eats_mapUnwrap, eats_absoluteParts]
  constructor
  · rintro ⟨v, ⟨w, ⟨rfl, h1, h2⟩ | ⟨ps, t', rfl, h1, h2, h3⟩, h6⟩, rfl⟩
    · rw [slash_utf8] at h6; cases h6; exact .inl ⟨rfl, h1, h2⟩
    · rw [absolute_utf8 h2] at h6; cases h6; exact .inr ⟨ps, t', rfl, h1, h2, h3⟩
  · rintro (⟨rfl, h1, h2⟩ | ⟨ps, t', rfl, h1, h2, h3⟩)
    · exact ⟨_, ⟨_, .inl ⟨rfl, h1, h2⟩, slash_utf8⟩, rfl⟩
    · exact ⟨_, ⟨_, .inr ⟨ps, t', rfl, h1, h2, h3⟩, absolute_utf8 h2⟩, rfl⟩

/-! ### Texts of paths -/

theorem path_percent : ¬ PathByte (byte '%') := by
  rintro (h | h)
  · exact unit_pchar.pc h
  · revert h; decide

theorem Enc.append {P : UInt8 → Prop} {u : Bytes} (h : Enc P t) (h' : Enc P u) : Enc P (t ++ u) := by
  induction h with
  | nil => exact h'
  | byte b t hb _ ih => exact .byte b _ hb ih
  | pct a b t ha hb _ ih => exact .pct a b _ ha hb ih

theorem Enc.drop {P : UInt8 → Prop} (hp : ¬ P (byte '%')) {u : Bytes} (h : Enc P t) (h' : Enc P (t ++ u)) : Enc P u := by
  induction h with
  | nil => exact h'
  | byte b t hb _ ih =>
    rw [List.cons_append] at h'
    generalize t ++ u = w at ih h'
    cases h' with
    | byte _ _ _ h' => exact ih h'
    | pct _ _ _ _ _ _ => exact absurd hb hp
  | pct a b t ha hb _ ih =>
    rw [List.cons_append, List.cons_append, List.cons_append] at h'
    generalize t ++ u = w at ih h'
    cases h' with
    | byte _ _ h1 _ => exact absurd h1 hp
    | pct _ _ _ _ _ h' => exact ih h'

theorem segments_enc (h : Segments t) : Enc PathByte t := by
  obtain ⟨ps, rfl, h⟩ := h
  induction ps with
  | nil => exact .nil
  | cons s ps ih =>
    obtain ⟨u, rfl, hu⟩ := h s (by simp)
    exact .byte _ _ (.inr rfl) (Enc.append (Enc.mono .inl hu) (ih fun s hs => h s (by simp [hs])))

theorem rootless_enc (h : RootlessText t) : Enc PathByte t := by
  obtain ⟨s, r, rfl, -, h1, h2⟩ := h
  exact (Enc.mono .inl h1).append (segments_enc h2)

theorem enc_split (h : Enc PathByte t) : ∃ s r, t = s ++ r ∧ Enc PcharByte s ∧ Segments r := by
  induction h with
  | nil => exact ⟨[], [], rfl, .nil, [], rfl, by simp⟩
  | byte b t hb _ ih =>
    obtain ⟨s, r, rfl, h1, h2⟩ := ih
    rcases hb with hb | rfl
    · exact ⟨b :: s, r, rfl, .byte _ _ hb h1, h2⟩
    · obtain ⟨ps, rfl, h3⟩ := h2
      refine ⟨[], _, rfl, .nil, (byte '/' :: s) :: ps, by simp, fun x hx => ?_⟩
      rcases List.mem_cons.1 hx with rfl | hx
      · exact ⟨s, rfl, h1⟩
      · exact h3 x hx
  | pct a b t ha hb _ ih =>
    obtain ⟨s, r, rfl, h1, h2⟩ := ih
    exact ⟨byte '%' :: a :: b :: s, r, rfl, .pct _ _ _ ha hb h1, h2⟩

/-- The paths of the RFC are the texts of characters of paths. -/
theorem rfcPath_iff : RfcPath t ↔ Enc PathByte t := by
  constructor
  · rintro (h | ⟨r, rfl, h⟩ | ⟨s, r, rfl, -, h1, h2⟩ | h | rfl)
    · exact segments_enc h
    · refine .byte _ _ (.inr rfl) ?_
      rcases h with rfl | h
      · exact .nil
      · exact rootless_enc h
    · exact (Enc.mono (fun h => .inl (nc_pchar h)) h1).append (segments_enc h2)
    · exact rootless_enc h
    · exact .nil
  · intro h
    obtain ⟨s, r, rfl, h1, h2⟩ := enc_split h
    by_cases hs : s = []
    · subst hs; exact .inl h2
    · exact .inr (.inr (.inr (.inl ⟨s, r, rfl, hs, h1, h2⟩)))

theorem longest_enc (P : UInt8 → Prop) : ∀ (n : Nat) (r : Bytes), r.length ≤ n → ∃ u v, r = u ++ v ∧ Enc P u ∧ ¬ Start P True v := by
  intro n
  induction n with
  | zero =>
    intro r hr
    obtain rfl : r = [] := List.eq_nil_of_length_eq_zero (by omega)
    exact ⟨[], [], rfl, .nil, by rintro (⟨b, r', h, -⟩ | ⟨-, a, b, r', h, -⟩) <;> cases h⟩
  | succ n ih =>
    intro r hr
    by_cases hs : Start P True r
    · rcases hs with ⟨b, r', rfl, hb⟩ | ⟨-, a, b, r', rfl, ha, hb⟩
      · obtain ⟨u, v, rfl, h1, h2⟩ := ih r' (by simp at hr; omega)
        exact ⟨b :: u, v, rfl, .byte _ _ hb h1, h2⟩
      · obtain ⟨u, v, rfl, h1, h2⟩ := ih r' (by simp at hr; omega)
        exact ⟨byte '%' :: a :: b :: u, v, rfl, .pct _ _ _ ha hb h1, h2⟩
    · exact ⟨[], r, rfl, .nil, hs⟩

/-- What `path` returns for a text. -/
def Kind (t : Bytes) : Option Path → Prop
  | none => t = []
  | some p => PathText t p ∧ t ≠ []

theorem start_path {v : Bytes} (h : ¬ Start PathByte True v) :
    ¬ Start PcharByte True v ∧ ∀ r', v ≠ byte '/' :: r' := by
  refine ⟨fun hs => h ?_, ?_⟩
  · rcases hs with ⟨b, r', rfl, hb⟩ | hs
    · exact .inl ⟨b, r', rfl, .inl hb⟩
    · exact .inr hs
  · rintro r' rfl; exact h (.inl ⟨_, r', rfl, .inr rfl⟩)

theorem enc_start {P : UInt8 → Prop} {r : Bytes} (h : Enc P t) (hn : t ≠ []) : Start P True (t ++ r) := by
  cases h with
  | nil => exact absurd rfl hn
  | byte b t hb _ => exact .inl ⟨b, t ++ r, rfl, hb⟩
  | pct a b t ha hb _ => exact .inr ⟨trivial, a, b, t ++ r, rfl, ha, hb⟩

theorem pathText_start {p : Path} {r : Bytes} (h : PathText t p) (hn : t ≠ []) : Start PathByte True (t ++ r) := by
  refine enc_start ?_ hn
  match p, h with
  | .abempty ps, h => exact segments_enc ⟨ps, h.1, h.2⟩
  | .rootless ps, ⟨h1, s, ss, h2, h3, h4, h5⟩ =>
    subst h2 h1
    exact rootless_enc ⟨s, ss.flatten, rfl, h3, h4, ss, rfl, h5⟩

theorem eats_path_of {u v : Bytes} (hu : Enc PathByte u) (hv : ¬ Start PathByte True v) :
    ∃ p, Eats path u p v ∧ Kind u p := by
  obtain ⟨hv1, hv2⟩ := start_path hv
  unfold path
  simp only [eats_name, eats_opt]
  obtain ⟨s, r, rfl, h1, ps, rfl, h2⟩ := enc_split hu
  by_cases hs : s = []
  · subst hs
    rw [List.nil_append]
    by_cases hp : ps = []
    · subst hp
      refine ⟨none, .inr ⟨rfl, rfl, fails_iff.2 ?_⟩, rfl⟩
      rintro t p rest rfl he
      have soft : ∀ {q : Path}, PathText t q → t ≠ [] → False := fun h h' => hv (pathText_start h h')
      rcases eats_or.1 he with he | ⟨-, he⟩
      · rcases eats_or.1 he with he | ⟨-, he⟩
        · rcases eats_or.1 he with he | ⟨-, he⟩
          · obtain ⟨qs, rfl, h3, -⟩ := eats_pathRootless.1 (eats_attempt.1 he)
            refine soft h3 ?_
            obtain ⟨rfl, s, ss, rfl, h4, -⟩ := h3
            simp [h4]
          · obtain ⟨qs, rfl, h0, h3, -⟩ := eats_pathAbempty1.1 (eats_attempt.1 he)
            refine soft h3 ?_
            obtain ⟨rfl, h4⟩ := h3
            cases qs with
            | nil => exact absurd rfl h0
            | cons x qs => obtain ⟨y, rfl, -⟩ := h4 x (by simp); simp
        · rcases eats_pathAbsolute.1 (eats_attempt.1 he) with ⟨-, rfl, -⟩ | ⟨qs, t', -, rfl, -⟩
          · exact hv2 rest rfl
          · exact hv2 (t' ++ rest) rfl
      · obtain ⟨s, ss, -, rfl, h3, h4, -⟩ := eats_pathNoscheme.1 he
        refine hv ?_
        rw [List.append_assoc]
        exact enc_start (Enc.mono (fun h => .inl (nc_pchar h)) h4) h3
    · have hne : ps.flatten ≠ [] := by
        cases ps with
        | nil => exact absurd rfl hp
        | cons x ps => obtain ⟨y, rfl, -⟩ := h2 x (by simp); simp
      refine ⟨some (.abempty ps), .inl ⟨_, rfl, ?_⟩, ⟨rfl, h2⟩, hne⟩
      refine eats_or.2 (.inl (eats_or.2 (.inl (eats_or.2 (.inr ⟨?_, eats_attempt.2
        (eats_pathAbempty1.2 ⟨ps, rfl, hp, ⟨rfl, h2⟩, hv1, hv2⟩)⟩)))))
      refine fail_attempt.2 ⟨rfl, fails_iff.2 ?_⟩
      rintro t p rest he h
      obtain ⟨qs, rfl, ⟨rfl, s, ss, rfl, h3, h4, -⟩, -⟩ := eats_pathRootless.1 h
      cases ps with
      | nil => exact hp rfl
      | cons x ps =>
        obtain ⟨y, rfl, -⟩ := h2 x (by simp)
        have h5 := enc_start (r := ss.flatten ++ rest) h4 h3
        rw [show s ++ (ss.flatten ++ rest) = (s :: ss).flatten ++ rest by simp, ← he] at h5
        exact slash_not_pchar h5
  · have ht : PathText (s ++ ps.flatten) (.rootless (s :: ps)) := ⟨by simp, s, ps, rfl, hs, h1, h2⟩
    refine ⟨some (.rootless (s :: ps)), .inl ⟨_, rfl, ?_⟩, ht, by simp [hs]⟩
    exact eats_or.2 (.inl (eats_or.2 (.inl (eats_or.2 (.inl (eats_attempt.2 (eats_pathRootless.2
      ⟨s :: ps, rfl, ht, hv1, hv2⟩)))))))

theorem kind_show {p : Option Path} (h : Kind t p) : optText p Path.show = t := by
  match p, h with
  | none, h => exact h.symm
  | some (.abempty ps), ⟨h, _⟩ => exact h.1.symm
  | some (.rootless ps), ⟨h, _⟩ => exact h.1.symm

/-! ## C121 Paths are read as far as they go and printed back -/

/-- `path` always succeeds. It consumes the longest beginning of the input that is a path of the RFC, and what it
returns is printed as what was consumed. -/
theorem c121_longest (input : Bytes) : ∃ p n, path ⟨input, 0⟩ = .success p n ∧ n ≤ input.length ∧
    RfcPath (input.take n) ∧ optText p Path.show = input.take n ∧
    ∀ m, n < m → m ≤ input.length → ¬ RfcPath (input.take m) := by
  obtain ⟨u, v, rfl, hu, hv⟩ := longest_enc PathByte _ input (Nat.le_refl _)
  obtain ⟨p, h1, h2⟩ := eats_path_of hu hv
  refine ⟨p, u.length, h1, by simp, ?_, ?_, fun m hm hl h => ?_⟩
  · rw [List.take_left]; exact rfcPath_iff.2 hu
  · rw [List.take_left]; exact kind_show h2
  · rw [List.take_append, List.take_of_length_le (by omega)] at h
    have h3 := Enc.drop path_percent hu (rfcPath_iff.1 h)
    have h4 := enc_start (r := v.drop (m - u.length)) h3 (by
      rw [List.length_append] at hl
      intro he
      have := congrArg List.length he
      rw [List.length_take, List.length_nil] at this
      omega)
    rw [List.take_append_drop] at h4
    exact hv h4

/-- The texts that are read to the end are the paths of the RFC. -/
theorem c121_language : (∃ p, path ⟨t, 0⟩ = .success p t.length) ↔ RfcPath t := by
  constructor
  · rintro ⟨p, h⟩
    obtain ⟨q, n, h1, -, h2, -⟩ := c121_longest t
    rw [h] at h1; cases h1
    rw [List.take_length] at h2
    exact h2
  · intro h
    obtain ⟨p, h1, -⟩ := eats_path_of (v := []) (rfcPath_iff.1 h) (by
      rintro (⟨b, r', h, -⟩ | ⟨-, a, b, r', h, -⟩) <;> cases h)
    unfold Eats at h1
    rw [List.append_nil] at h1
    exact ⟨p, h1⟩

theorem not_start_nil {P : UInt8 → Prop} : ¬ Start P True [] := by
  rintro (⟨b, r', h, -⟩ | ⟨-, a, b, r', h, -⟩) <;> cases h

theorem eats_whole {A : Type} {p : Parser UInt8 A} {v : A} : p ⟨t, 0⟩ = .success v t.length ↔ Eats p t v [] := by
  unfold Eats; rw [List.append_nil]

/-- `path_absolute` reads exactly the texts of path-absolute to the end, and prints them back. -/
theorem c121_absolute : (∃ p, pathAbsolute ⟨t, 0⟩ = .success p t.length) ↔ AbsoluteText t := by
  simp only [eats_whole, eats_pathAbsolute]
  constructor
  · rintro ⟨p, ⟨-, rfl, -⟩ | ⟨ps, t', -, rfl, ⟨h1, s, ss, h2, h3, h4, h5⟩, -⟩⟩
    · exact ⟨[], rfl, .inl rfl⟩
    · subst h2 h1
      exact ⟨_, rfl, .inr ⟨s, ss.flatten, rfl, h3, h4, ss, rfl, h5⟩⟩
  · rintro ⟨r, rfl, rfl | ⟨s, r, rfl, h1, h2, ps, rfl, h3⟩⟩
    · exact ⟨_, .inl ⟨rfl, rfl, not_start_nil⟩⟩
    · exact ⟨_, .inr ⟨s :: ps, _, rfl, rfl, ⟨by simp, s, ps, rfl, h1, h2, h3⟩, not_start_nil, by simp⟩⟩

/-- `path_noscheme` reads exactly the texts of path-noscheme to the end. -/
theorem c121_noscheme : (∃ p, pathNoscheme ⟨t, 0⟩ = .success p t.length) ↔ NoschemeText t := by
  simp only [eats_whole, eats_pathNoscheme]
  constructor
  · rintro ⟨p, s, ss, -, rfl, h1, h2, h3, -⟩
    exact ⟨s, _, rfl, h1, h2, ss, rfl, h3⟩
  · rintro ⟨s, r, rfl, h1, h2, ps, rfl, h3⟩
    exact ⟨_, s, ps, rfl, rfl, h1, h2, h3, fun _ => not_start_nil, fun _ => not_start_nil, by simp⟩

/-- What these two parsers return is printed as what they consumed. -/
theorem c121_printed {input : Bytes} {p : Path} {n : Nat}
    (h : pathAbsolute ⟨input, 0⟩ = .success p n ∨ pathNoscheme ⟨input, 0⟩ = .success p n) : p.show = input.take n := by
  rcases h with h | h
  · obtain ⟨t, rest, rfl, rfl, he⟩ := success_split h
    rw [List.take_left]
    rcases eats_pathAbsolute.1 he with ⟨rfl, rfl, -⟩ | ⟨ps, t', rfl, rfl, ⟨h1, -⟩, -⟩
    · rfl
    · rw [h1]; rfl
  · obtain ⟨t, rest, rfl, rfl, he⟩ := success_split h
    rw [List.take_left]
    obtain ⟨s, ss, rfl, rfl, -⟩ := eats_pathNoscheme.1 he
    rfl

/-- The kind of a path is not the one of the RFC: `path` takes every path-absolute for a path-abempty. -/
theorem c121_kind_violated (h : AbsoluteText t) : ∃ ps, path ⟨t, 0⟩ = .success (some (.abempty ps)) t.length := by
  obtain ⟨p, h1, h2⟩ := eats_path_of (v := []) (rfcPath_iff.1 (.inr (.inl h))) not_start_nil
  rw [← eats_whole] at h1
  obtain ⟨r, rfl, -⟩ := h
  match p, h2 with
  | some (.abempty ps), _ => exact ⟨ps, h1⟩
  | some (.rootless ps), ⟨⟨h3, s, ss, h4, h5, h6, _⟩, _⟩ =>
    subst h4
    have h7 := enc_start (r := ss.flatten) h6 h5
    rw [show s ++ ss.flatten = (s :: ss).flatten by simp, ← h3] at h7
    exact absurd h7 slash_not_pchar

/-- ... and `path_noscheme` returns a rootless path. -/
theorem c121_noscheme_violated (h : NoschemeText t) :
    ∃ ps, pathNoscheme ⟨t, 0⟩ = .success (.rootless ps) t.length := by
  obtain ⟨p, h1⟩ := c121_noscheme.2 h
  obtain ⟨s, ss, rfl, -⟩ := eats_pathNoscheme.1 (eats_whole.1 h1)
  exact ⟨_, h1⟩

/-- So a parsed URI never has a path of the kind absolute, noscheme or empty; all its paths are of the kinds abempty and
rootless. -/
theorem c121_uri_kind {std : Std} (hstd : StdOk std) {input : Bytes} {u : Uri} {p : Path} (h : Uri.parse std input = .ok u)
    (hp : u.path = some p) : ∃ ps, p = .abempty ps ∨ p = .rootless ps := by
  obtain ⟨t, rest, -, he⟩ := parse_iff.1 h
  obtain ⟨ts, th, tq, tf, rfl, -, h2, -⟩ := uri_sound hstd he
  unfold Uri.path at hp
  cases hh : u.hier with
  | none => rw [hh] at hp; cases hp
  | some x =>
    rw [hh] at h2 hp
    obtain ⟨s, rfl, ta, tp, -, -, h3, -⟩ := h2
    cases hp
    generalize x.path = q at h3
    match q, h3 with
    | .abempty ps, _ => exact ⟨ps, .inl rfl⟩
    | .rootless ps, _ => exact ⟨ps, .inr rfl⟩

example : AbsoluteText (bytes "/a:b/c") :=
  ⟨bytes "a:b/c", rfl, .inr ⟨bytes "a:b", bytes "/c", rfl, by decide, .of_all (by decide), [bytes "/c"], rfl, by
    intro s hs
    rw [List.mem_singleton] at hs
    subst hs
    exact ⟨bytes "c", rfl, .of_all (by decide)⟩⟩⟩

example : NoschemeText (bytes "ab/c") :=
  ⟨bytes "ab", bytes "/c", rfl, by decide, .of_all (by decide), [bytes "/c"], rfl, by
    intro s hs
    rw [List.mem_singleton] at hs
    subst hs
    exact ⟨bytes "c", rfl, .of_all (by decide)⟩⟩

example : pathNoscheme ⟨bytes "ab:c/d", 0⟩ = .success (.rootless [bytes "ab"]) 2 := by decide +kernel
example : path ⟨bytes "/a//b%20?x", 0⟩ = .success (some (.abempty [bytes "/a", bytes "/", bytes "/b%20"])) 8 := by
  decide +kernel

end OniComb.Uri
