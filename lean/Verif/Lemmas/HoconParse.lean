import Verif.Model.HoconParse
import Verif.Lemmas.OneItem
import Verif.Lemmas.Below
import Verif.Spec.HoconLayout

/-! Lemmas about the `hocon` grammar. -/

namespace OniComb.Hocon
open OniComb OniComb.Hocon.Spec
open OniComb.Uri (Bytes byte bytes fromUtf8 parseUInt mapUnwrap text UnitP unit_alpha unit_digit unit_hex)

variable {A B : Type} {t rest r : Bytes} {c : Committed}

instance : Good space := by unfold space; infer_instance
instance : Good comment := by unfold comment; infer_instance
instance : Good spaceOrComment := by unfold spaceOrComment; infer_instance
instance (p : Parser UInt8 A) [Good p] : Good (spaced p) := by unfold spaced; infer_instance
instance : Good integer := by unfold integer; infer_instance
instance : Good frac := by unfold frac; infer_instance
instance : Good exp := by unfold exp; infer_instance
instance (p : Parser UInt8 A) [Good p] : Good (text p) := by unfold text; infer_instance
instance : Good numberBare := by unfold numberBare; infer_instance
instance : Good number := by unfold number; infer_instance
instance (s : String) : Good (spelling s) := by unfold spelling; infer_instance
instance : Good unitNs := by unfold unitNs; infer_instance
instance : Good unitUs := by unfold unitUs; infer_instance
instance : Good unitMs := by unfold unitMs; infer_instance
instance : Good unitS := by unfold unitS; infer_instance
instance : Good unitM := by unfold unitM; infer_instance
instance : Good unitH := by unfold unitH; infer_instance
instance : Good unitD := by unfold unitD; infer_instance
instance : Good unitP := by unfold unitP; infer_instance
instance : Good specialChar := by unfold specialChar; infer_instance
instance : Good charString := by unfold charString; infer_instance
instance : Good utf16Char := by unfold utf16Char; infer_instance
instance : Good utf16String := by unfold utf16String; infer_instance
instance : Good stringSurround := by unfold stringSurround; infer_instance
instance (ch : Char) : Good (quote ch) := by unfold quote; infer_instance
instance : Good string := by unfold string; infer_instance
instance : Good pathElement := by unfold pathElement; infer_instance
instance : Good path := by unfold path; infer_instance
instance : Good key := by unfold key; infer_instance
instance : Good reference := by unfold reference; infer_instance
instance : Good kv := by unfold kv; infer_instance

/-! ### Blanks and comments -/

instance (b : UInt8) : Decidable (Blank b) := by unfold Blank; infer_instance
instance (t : Bytes) : Decidable (Blanks t) := by unfold Blanks; infer_instance

theorem blanks_nil : Blanks [] := by intro b h; cases h

theorem Quiet.noBlank (h : Quiet r) : NoHead Blank r := h.mono fun b hb => by
  unfold Blank at hb
  revert hb
  exact (by decide : ∀ b ∈ bytes " \t\r\n", b ∈ bytes " \t\r\n#/") b

theorem eats_space {v : Bytes} : Eats space t v rest ↔ v = t ∧ Blanks t ∧ NoHead Blank rest := by
  unfold space
  rw [eats_collect]
  simp only [(one_of (bytes " \t\r\n")).eats_many0]
  constructor
  · rintro ⟨rfl, _, rfl, h1, h2⟩; exact ⟨rfl, h1, h2⟩
  · rintro ⟨rfl, h1, h2⟩; exact ⟨rfl, _, rfl, h1, h2⟩

theorem fail_comment (ht : Blanks t) (hr : Quiet rest) : ∃ c, Fail comment (t ++ rest) c := by
  refine ⟨.uncommitted, ?_⟩
  unfold comment
  refine fail_collect.2 (Eats.andThen_fail (eats_space.2 ⟨rfl, ht, hr.noBlank⟩) ?_)
  refine fail_many1.2 ⟨rfl, .uncommitted, Fail.andThen ?_⟩
  refine Fail.or ?_ (fail_collect.2 (fail_elm.2 ⟨rfl, ?_⟩))
  · obtain ⟨c, hc⟩ := (fail_seq (lit := bytes "//") (r := rest)).2 (by
      rintro ⟨x, hx⟩
      exact hr (byte '/') (byte '/' :: x) (by rw [← hx]; rfl) (by decide))
    exact fail_attempt_of (fail_collect.2 hc)
  · intro r' h
    exact hr _ _ h (by decide)

theorem eats_blanks (ht : Blanks t) (hr : Quiet rest) : Eats spaceOrComment t () rest := by
  unfold spaceOrComment
  obtain ⟨c, hc⟩ := fail_comment ht hr
  exact eats_discard.2 ⟨t, Eats.or_right (fail_attempt_of hc) (eats_space.2 ⟨rfl, ht, hr.noBlank⟩)⟩

theorem eats_takeTill0 {f : UInt8 → Bool} {s : Bytes} {b : UInt8} (hs : ∀ x ∈ s, f x = false) (hb : f b = true) :
    Eats (takeTill0 f) (s ++ [b]) (s ++ [b]) rest := by
  have h : ∀ (s : Bytes) (i : Nat), (∀ x ∈ s, f x = false) →
      findTill f i (s ++ [b] ++ rest) = some (i + s.length) := by
    intro s
    induction s with
    | nil => intro i _; simp [findTill, hb]
    | cons x s ih =>
      intro i hs
      have hx := hs x (by simp)
      simp only [List.cons_append, findTill, hx, Bool.false_eq_true, if_false]
      rw [ih _ fun y hy => hs y (by simp [hy])]
      simp; omega
  have h0 := h s 0 hs
  rw [Nat.zero_add] at h0
  unfold Eats takeTill0 State.withInput
  simp only [List.drop_zero, Nat.zero_le, if_true]
  rw [h0]
  simp only [State.withSlice, List.length_append, List.length_singleton]
  simp [List.take_append, List.take_of_length_le]

/-- One line of a comment. -/
def commentOne : Parser UInt8 (Bytes × Bytes) :=
  andThen (or (attempt (collect (seq (bytes "//")))) (collect (elm (byte '#'))))
    (takeTill0 fun c => c == byte '\r' || c == byte '\n')

instance : Good commentOne := by unfold commentOne; infer_instance

theorem eats_commentOne {c : Bytes} {e : UInt8} (hc : CommentLine c) (he : e = byte '\r' ∨ e = byte '\n') :
    ∃ v, Eats commentOne (c ++ [e]) v rest := by
  have he' : (fun c => c == byte '\r' || c == byte '\n') e = true := by rcases he with rfl | rfl <;> decide
  have ht : ∀ b : Bytes, (∀ x ∈ b, x ≠ byte '\r' ∧ x ≠ byte '\n') →
      Eats (takeTill0 fun c => c == byte '\r' || c == byte '\n') (b ++ [e]) (b ++ [e]) rest := fun b hb =>
    eats_takeTill0 (fun x hx => by simp [hb x hx]) he'
  unfold commentOne
  obtain ⟨⟨b, rfl | rfl⟩, hc⟩ := hc
  · refine ⟨_, Eats.andThen (t1 := [byte '#']) (t2 := b ++ [e])
      (.or_right ?_ (eats_collect.2 ⟨rfl, _, eats_elm.2 ⟨rfl, rfl⟩⟩)) (ht b fun y hy => hc y (by simp [hy]))⟩
    obtain ⟨c, h⟩ := (fail_seq (lit := bytes "//") (r := byte '#' :: (b ++ [e] ++ rest))).2 (by rintro ⟨y, hy⟩; cases hy)
    exact fail_attempt_of (fail_collect.2 h)
  · exact ⟨_, Eats.andThen (t1 := [byte '/', byte '/']) (t2 := b ++ [e])
      (.or_left (Eats.attempt (eats_collect.2 ⟨rfl, _, eats_seq.2 ⟨rfl, rfl⟩⟩))) (ht b fun y hy => hc y (by simp [hy]))⟩

theorem fail_commentOne (hr : NoHead (fun b => b = byte '#' ∨ b = byte '/') r) : Fail commentOne r .uncommitted := by
  unfold commentOne
  refine .andThen (.or ?_ (fail_collect.2 (fail_elm.2 ⟨rfl, fun r' h => hr _ _ h (.inl rfl)⟩)))
  obtain ⟨c, h⟩ := (fail_seq (lit := bytes "//") (r := r)).2 (by
    rintro ⟨y, hy⟩
    exact hr _ _ hy.symm (.inr rfl))
  exact fail_attempt_of (fail_collect.2 h)

theorem eats_comment {vs : List (Bytes × Bytes)} {b1 : Bytes} (h1 : Blanks b1) (hne : vs ≠ []) (h : Many commentOne t vs rest)
    (hq : NoHead Blank (t ++ rest)) (hr : NoHead (fun b => b = byte '#' ∨ b = byte '/') rest) :
    Eats spaceOrComment (b1 ++ t) () rest := by
  unfold spaceOrComment
  refine eats_discard.2 ⟨b1 ++ t, .or_left (Eats.attempt ?_)⟩
  show Eats (collect (andThen space (many1 commentOne))) _ _ _
  exact eats_collect.2 ⟨rfl, (b1, vs), Eats.andThen (eats_space.2 ⟨rfl, h1, hq⟩)
    (eats_many1.2 ⟨hne, h, .uncommitted, fail_commentOne hr⟩)⟩

theorem Blanks.gap (h : Blanks t) : Gap t := ⟨t, [], h, by simp, by simp [commentLines]⟩

theorem gap_nil : Gap [] := blanks_nil.gap

theorem many_commentLines (cs : List Bytes) (h : ∀ c ∈ cs, CommentLine c) :
    ∃ vs, Many commentOne (commentLines cs) vs rest ∧ vs.length = cs.length := by
  induction cs with
  | nil => exact ⟨[], .nil _, rfl⟩
  | cons c cs ih =>
    obtain ⟨vs, h1, h2⟩ := ih fun x hx => h x (by simp [hx])
    obtain ⟨v, hv⟩ := eats_commentOne (rest := commentLines cs ++ rest) (h c (by simp)) (.inr rfl)
    exact ⟨v :: vs, Many.cons hv h1, by simp [h2]⟩

theorem commentLine_head {c : Bytes} (h : CommentLine c) : ∃ b x, c = b :: x ∧ ¬ Blank b := by
  obtain ⟨⟨b, rfl | rfl⟩, -⟩ := h
  · exact ⟨_, _, rfl, by decide⟩
  · exact ⟨_, _, rfl, by decide⟩

theorem eats_gap (ht : Gap t) (hr : Quiet rest) : Eats spaceOrComment t () rest := by
  obtain ⟨b, cs, hb, hc, rfl⟩ := ht
  cases cs with
  | nil => simpa [commentLines] using eats_blanks hb hr
  | cons c cs =>
    obtain ⟨vs, h1, h2⟩ := many_commentLines (rest := rest) _ hc
    refine eats_comment hb (by rintro rfl; cases h2) h1 ?_ (hr.mono ?_)
    · obtain ⟨x, y, hx, hy⟩ := commentLine_head (hc c (by simp))
      simp only [commentLines, List.flatMap_cons, hx]
      exact noHead_cons.2 hy
    · rintro y (rfl | rfl) <;> decide

theorem eats_spaced {p : Parser UInt8 A} [Good p] {v : A} {b1 b2 : Bytes} (h1 : Gap b1) (h2 : Gap b2)
    (hq : Quiet (t ++ (b2 ++ rest))) (hr : Quiet rest) (h : Eats p t v (b2 ++ rest)) :
    Eats (spaced p) (b1 ++ (t ++ b2)) v rest := by
  unfold spaced
  exact Eats.surround (eats_gap h1 hq) h (eats_gap h2 hr)

theorem eats_spaced' {p : Parser UInt8 A} [Good p] {v : A} {b2 : Bytes} (h2 : Gap b2)
    (hq : Quiet (t ++ (b2 ++ rest))) (hr : Quiet rest) (h : Eats p t v (b2 ++ rest)) :
    Eats (spaced p) (t ++ b2) v rest := eats_spaced gap_nil h2 hq hr h

theorem fail_spaced {p : Parser UInt8 A} [Good p] {b1 : Bytes} (h1 : Blanks b1) (hr : Quiet r) (h : Fail p r c) :
    Fail (spaced p) (b1 ++ r) c := by
  unfold spaced surround
  exact Eats.skipLeft_fail (eats_blanks h1 hr) h.skipRight

theorem fail_spaced' {p : Parser UInt8 A} [Good p] (hr : Quiet r) (h : Fail p r c) : Fail (spaced p) r c :=
  fail_spaced (b1 := []) blanks_nil hr h

theorem prog_slashes : Prog (seq (bytes "//")) := prog_seq (by decide)
instance : Halts space := by unfold space; infer_instance
instance : Halts comment := by
  have := prog_slashes
  unfold comment; infer_instance
instance : Halts spaceOrComment := by unfold spaceOrComment; infer_instance
instance (p : Parser UInt8 A) [Good p] [Halts p] : Halts (spaced p) := by unfold spaced; infer_instance
instance (p : Parser UInt8 A) [Good p] [Prog p] : Prog (spaced p) := by unfold spaced; infer_instance

/-! ### Paths and keys -/

/-- A byte of a path element. -/
def SegByte (b : UInt8) : Prop := Element.isAlpha b = true ∨ b = byte '-' ∨ b = byte '_'

instance (b : UInt8) : Decidable (SegByte b) := by unfold SegByte; infer_instance

theorem segByte_ascii {b : UInt8} (h : SegByte b) : b.toNat < 128 := by
  rcases h with h | rfl | rfl
  · have := Uri.isAlpha_iff.1 h
    simp only [Uri.Rfc.Alpha] at this
    omega
  · decide
  · decide

theorem one_seg : OneOfP (or elmAlpha (elmOf (bytes "-_"))) SegByte :=
  ((one_pred _).or (one_of (bytes "-_"))).congr fun b => by
    simp only [SegByte, show bytes "-_" = [byte '-', byte '_'] from rfl, List.mem_cons, List.not_mem_nil, or_false]

theorem eats_pathElement {v : Bytes} : Eats pathElement t v rest ↔ v = t ∧ Segment t ∧ NoHead SegByte rest := by
  unfold pathElement
  rw [eats_collect]
  simp only [one_seg.eats_many1, Segment]
  constructor
  · rintro ⟨rfl, _, rfl, h1, h2, h3⟩; exact ⟨rfl, ⟨h1, h2⟩, h3⟩
  · rintro ⟨rfl, ⟨h1, h2⟩, h3⟩; exact ⟨rfl, _, rfl, h1, h2, h3⟩

/-- What must not follow a path. -/
def PathByte (b : UInt8) : Prop := SegByte b ∨ b = byte '.'

theorem dot_noSeg (r : Bytes) : NoHead SegByte (byte '.' :: r) := noHead_cons.2 (by decide)

theorem joinDot_tail (ss : List Bytes) : joinDot (s :: ss) = s ++ (ss.map fun x => byte '.' :: x).flatten := by
  induction ss generalizing s with
  | nil => simp [joinDot]
  | cons x ss ih => rw [joinDot, ih]; simp; simp

theorem eats_segments {ss : List Bytes} (hs : ∀ s ∈ ss, Segment s) (hr : NoHead PathByte rest) :
    SepMany pathElement (elm (byte '.')) (ss.map fun x => byte '.' :: x).flatten ss rest := by
  induction ss with
  | nil => exact .nil _
  | cons s ss ih =>
    refine .cons (s := [byte '.']) (t := s) (t' := (ss.map fun x => byte '.' :: x).flatten)
      (eats_elm.2 ⟨rfl, rfl⟩) (eats_pathElement.2 ⟨rfl, hs s (by simp), ?_⟩) (ih fun x hx => hs x (by simp [hx]))
    cases ss with
    | nil => exact hr.mono fun b => .inl
    | cons x ss => exact dot_noSeg _

theorem segment_ascii {s : Bytes} (h : Segment s) : ∀ b ∈ s, b.toNat < 128 := fun b hb => segByte_ascii (h.2 b hb)

theorem joinDot_ascii {ss : List Bytes} (hs : ∀ s ∈ ss, Segment s) : ∀ b ∈ joinDot ss, b.toNat < 128 := by
  cases ss with
  | nil => simp [joinDot]
  | cons s ss =>
    rw [joinDot_tail]
    intro b hb
    rcases List.mem_append.1 hb with hb | hb
    · exact segment_ascii (hs s (by simp)) b hb
    · obtain ⟨l, hl, hb⟩ := List.mem_flatten.1 hb
      obtain ⟨x, hx, rfl⟩ := List.mem_map.1 hl
      rcases List.mem_cons.1 hb with rfl | hb
      · decide
      · exact segment_ascii (hs x (by simp [hx])) b hb

theorem eats_pathSegments {ss : List Bytes} (hne : ss ≠ []) (hs : ∀ s ∈ ss, Segment s) (hr : NoHead PathByte rest) :
    Eats (many1Sep pathElement (elm (byte '.'))) (joinDot ss) ss rest := by
  cases ss with
  | nil => exact absurd rfl hne
  | cons s ss =>
    rw [joinDot_tail]
    refine eats_many1Sep.2 ⟨s, (ss.map fun x => byte '.' :: x).flatten, [], s, ss, by simp, rfl, ?_, ?_, .inl ⟨rfl, ?_⟩⟩
    · refine eats_pathElement.2 ⟨rfl, hs s (by simp), ?_⟩
      cases ss with
      | nil => exact hr.mono fun b => .inl
      | cons x ss => exact dot_noSeg _
    · exact eats_segments (fun x hx => hs x (by simp [hx])) hr
    · exact ⟨.uncommitted, fail_elm.2 ⟨rfl, fun r' h => hr _ _ h (.inr rfl)⟩⟩

theorem eats_path {k : Bytes} (hk : PathText k) (hr : NoHead PathByte rest) : Eats path k k rest := by
  obtain ⟨ss, hne, hs, rfl⟩ := hk
  exact Uri.eats_text.2 ⟨Uri.fromUtf8_ascii _ (joinDot_ascii hs), ss, eats_pathSegments hne hs hr⟩

theorem pathText_head {k : Bytes} (hk : PathText k) : ∃ b k', k = b :: k' ∧ SegByte b := by
  obtain ⟨ss, hne, hs, rfl⟩ := hk
  cases ss with
  | nil => exact absurd rfl hne
  | cons s ss =>
    have h := hs s (by simp)
    rw [joinDot_tail]
    cases s with
    | nil => exact absurd rfl h.1
    | cons b s => exact ⟨b, _, rfl, h.2 b (by simp)⟩

theorem seg_quiet {b : UInt8} (h : SegByte b) : b ∉ bytes " \t\r\n#/" := by
  intro hb
  have : ∀ b ∈ bytes " \t\r\n#/", ¬ SegByte b := by decide
  exact this b hb h

theorem pathText_quiet {k : Bytes} (hk : PathText k) : Quiet (k ++ r) := by
  obtain ⟨b, k', rfl, hb⟩ := pathText_head hk
  exact noHead_cons.2 (seg_quiet hb)

theorem blank_noPath {b : UInt8} (h : Blank b) : ¬ PathByte b := by
  revert h
  exact (by decide : ∀ b ∈ bytes " \t\r\n", ¬ (SegByte b ∨ b = byte '.')) b

theorem noPath_blanks {b2 : Bytes} (h2 : Blanks b2) (hr : NoHead PathByte rest) : NoHead PathByte (b2 ++ rest) := by
  cases b2 with
  | nil => exact hr
  | cons b b2 => exact noHead_cons.2 (blank_noPath (h2 b (by simp)))

theorem eats_key {k b1 b2 : Bytes} (hk : PathText k) (h1 : Gap b1) (h2 : Blanks b2) (hr : Quiet rest)
    (hp : NoHead PathByte rest) : Eats key (b1 ++ (k ++ b2)) k rest := by
  unfold key
  exact eats_spaced h1 h2.gap (pathText_quiet hk) hr (Eats.or_left (eats_path hk (noPath_blanks h2 hp)).attempt)

/-- The same with something between the key and the rest. -/
theorem eats_key' {k b2 : Bytes} (hk : PathText k) (h2 : Blanks b2) (hr : Quiet rest)
    (hp : NoHead PathByte (b2 ++ rest)) : Eats key (k ++ b2) k rest := by
  unfold key
  exact eats_spaced' h2.gap (pathText_quiet hk) hr (Eats.or_left (eats_path hk hp).attempt)

instance : Prog pathElement := by unfold pathElement; infer_instance
instance : Halts pathElement := by unfold pathElement; infer_instance
instance : Halts path := by unfold path; infer_instance
instance : Halts specialChar := by unfold specialChar; infer_instance
instance : Halts charString := by unfold charString; infer_instance
instance : Halts utf16Char := by unfold utf16Char; infer_instance
instance : Prog utf16Char := by
  have : Prog (seq (bytes "\\u")) := prog_seq (by decide)
  unfold utf16Char; infer_instance
instance : Halts utf16String := by unfold utf16String; infer_instance
instance : Prog charString := by unfold charString; infer_instance
instance : Prog utf16String := by unfold utf16String; infer_instance
instance : Prog stringSurround := by unfold stringSurround; infer_instance
instance : Halts stringSurround := by unfold stringSurround; infer_instance
instance (ch : Char) : Halts (quote ch) := by unfold quote; infer_instance
instance : Halts string := by unfold string; infer_instance
instance : Halts key := by unfold key; infer_instance

end OniComb.Hocon
