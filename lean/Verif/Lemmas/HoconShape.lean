import Verif.Lemmas.HoconYields
import Verif.Lemmas.HoconParse
import Verif.Spec.HoconShape

/-! What the `hocon` grammar yields: paths, strings that are not empty, concatenations. -/

namespace OniComb
variable {I A B : Type} {p q : Parser I A} {P : A → Prop}

theorem or_success_left {s : State I} {v : A} {k : Nat} (h : or p q s = .success v k) :
    p s = .success v k ∨ ((∃ e, p s = .failure e .uncommitted) ∧ q s = .success v k) := by
  unfold or at h
  split at h
  · rename_i e he; exact .inr ⟨⟨e, he⟩, h⟩
  · exact .inl h

theorem or_fails_both {s : State I} {e : PError I} (h : or p q s = .failure e .uncommitted) :
    (∃ e, p s = .failure e .uncommitted) ∧ q s = .failure e .uncommitted := by
  unfold or at h
  split at h
  · rename_i e' he; exact ⟨⟨e', he⟩, h⟩
  · rename_i hn; exact absurd h (hn e)

theorem Yields.and {Q : A → Prop} (h : Yields p P) (h' : Yields p Q) : Yields p fun v => P v ∧ Q v :=
  fun s v k hv => ⟨h s v k hv, h' s v k hv⟩

/-- What `collect` returns is a text that the parser eats. -/
theorem yields_collect [Good p] {Q : List I → Prop} (h : ∀ t rest a, Eats p t a rest → Q t) : Yields (collect p) Q := by
  intro s v k hs
  unfold collect at hs
  cases hp : p s with
  | success a n =>
    rw [hp] at hs
    dsimp only [State.withSlice] at hs
    split at hs
    · rename_i hl
      cases hs
      obtain ⟨i, o⟩ := s
      dsimp only at hl ⊢
      have h1 : i = i.take o ++ i.drop o := (List.take_append_drop o i).symm
      have h2 : (i.take o).length = o := by rw [List.length_take]; omega
      have h3 : p ⟨i.take o ++ i.drop o, (i.take o).length⟩ = .success a k := by rw [← h1, h2]; exact hp
      obtain ⟨t, rest, h4, rfl, h5⟩ := success_split ((at_success _ _ _ _).1 h3)
      rw [h4, List.take_left]
      exact h t rest a h5
    · cases hs
  | failure e c => rw [hp] at hs; cases hs
  | panic => rw [hp] at hs; cases hs
  | diverge => rw [hp] at hs; cases hs

/-- `many1` returns at least one value, and the first one comes from the state it starts in. -/
theorem many1_first {s : State I} {vs : List A} {k : Nat} (h : many1 p s = .success vs k) :
    ∃ v ws n, p s = .success v n ∧ vs = v :: ws := by
  obtain ⟨hlow, h⟩ := (repeatSep_success _ _ _ _ _ _).1 h
  rcases h with ⟨rfl, -, -⟩ | ⟨v, l, ws, m, k, h1, rfl, -⟩
  · exact absurd (hlow 1 rfl) (by simp)
  · exact ⟨v, ws, l, h1, rfl⟩

theorem Yields.many1_ne (h : Yields p P) : Yields (OniComb.many1 p) fun vs => vs ≠ [] ∧ ∀ v ∈ vs, P v := fun s vs k hs => by
  obtain ⟨v, ws, n, -, rfl⟩ := many1_first hs
  exact ⟨by simp, h.many1 s _ k hs⟩

end OniComb

namespace OniComb.Hocon
open OniComb OniComb.Hocon.Spec
open OniComb.Uri (Bytes byte bytes fromUtf8 parseUInt mapUnwrap text)

/-! ### Paths -/

theorem sepMany_segments {t : Bytes} {vs : List Bytes} {rest : Bytes} (h : SepMany pathElement (elm (byte '.')) t vs rest) :
    (∀ v ∈ vs, Segment v) ∧ t = (vs.map fun x => byte '.' :: x).flatten := by
  induction h with
  | nil => simp
  | cons h1 h2 _ ih =>
    obtain ⟨rfl, -⟩ := eats_elm.1 h1
    obtain ⟨rfl, h3, -⟩ := eats_pathElement.1 h2
    exact ⟨List.forall_mem_cons.2 ⟨h3, ih.1⟩, by simp [ih.2]⟩

theorem eats_refText {t : Bytes} {vs : List Bytes} {rest : Bytes}
    (h : Eats (many1Sep pathElement (elm (byte '.'))) t vs rest) : RefText t := by
  obtain ⟨t1, t2, t3, v, ws, rfl, rfl, h1, h2, h3⟩ := eats_many1Sep.1 h
  obtain ⟨rfl, h4, -⟩ := eats_pathElement.1 h1
  obtain ⟨h5, rfl⟩ := sepMany_segments h2
  have hp : PathText (joinDot (v :: ws)) := ⟨_, by simp, List.forall_mem_cons.2 ⟨h4, h5⟩, rfl⟩
  rw [joinDot_tail] at hp
  rcases h3 with ⟨rfl, -⟩ | ⟨⟨b, h3⟩, -⟩
  · exact .inl (by simpa using hp)
  · obtain ⟨rfl, -⟩ := eats_elm.1 h3
    exact .inr ⟨_, hp, by simp⟩

theorem yields_refText : Yields (text (many1Sep pathElement (elm (byte '.')))) RefText := by
  refine Yields.mapRes (Yields.map ((yields_collect fun t rest a h => eats_refText h).imp fun v hv w hw => ?_))
  unfold fromUtf8 at hw
  split at hw
  · cases hw; exact hv
  · cases hw

theorem pathText_ne {p : Bytes} (h : PathText p) : p ≠ [] := by
  obtain ⟨b, k, rfl, -⟩ := pathText_head h
  simp

theorem refText_ne {p : Bytes} (h : RefText p) : p ≠ [] := by
  rcases h with h | ⟨q, h, rfl⟩
  · exact pathText_ne h
  · simp

/-! ### Strings -/

theorem flatten_ne {ss : List Bytes} (h : ss ≠ []) (hs : ∀ s ∈ ss, s ≠ []) : ss.flatten ≠ [] := by
  cases ss with
  | nil => exact absurd rfl h
  | cons s ss =>
    have := hs s (by simp)
    simp [this]

theorem encodeUtf8_ne (c : Nat) : Unicode.encodeUtf8 c ≠ [] := by
  unfold Unicode.encodeUtf8
  split
  · simp
  · split
    · simp
    · split <;> simp

theorem decodeUtf16_ne {us : List Nat} (h : us ≠ []) : Unicode.decodeUtf16 us ≠ [] := by
  match us, h with
  | [u], _ => rw [Unicode.decodeUtf16]; split <;> simp
  | u :: w :: us, _ =>
    rw [Unicode.decodeUtf16]
    split
    · split <;> simp
    · split <;> simp

theorem yields_charString_ne : Yields charString (· ≠ []) :=
  Yields.mapRes ((Yields.many1_ne (P := fun _ => True) Yields.any).imp fun v hv w hw => by
    unfold fromUtf8 at hw
    split at hw
    · cases hw; exact hv.1
    · cases hw)

theorem yields_utf16String_ne : Yields utf16String (· ≠ []) :=
  Yields.map ((Yields.many1_ne (P := fun _ => True) Yields.any).imp fun v hv => by
    intro h
    rw [List.flatMap_eq_nil_iff] at h
    obtain ⟨c, cs, hc⟩ := List.exists_cons_of_ne_nil (decodeUtf16_ne hv.1)
    exact encodeUtf8_ne c (h c (by simp [hc])))

theorem yields_stringSurround_ne : Yields stringSurround fun ss => ss.flatten ≠ [] :=
  (Yields.many1_ne (Yields.or (Yields.attempt yields_charString_ne) yields_utf16String_ne)).imp fun _ h =>
    flatten_ne h.1 h.2

theorem yields_string_ne : Yields string (· ≠ []) :=
  Yields.map (Yields.or (Yields.or (Yields.attempt (Yields.surround yields_stringSurround_ne))
    (Yields.attempt (Yields.surround yields_stringSurround_ne))) yields_stringSurround_ne)

theorem yields_key_ne : Yields key fun k => k ≠ [] ∧ IsText k :=
  Yields.surround ((Yields.or (Yields.attempt (yields_refText.imp fun _ h => refText_ne h)) yields_string_ne).and
    (Yields.or (Yields.attempt yields_path) yields_string))

/-! ### Values -/

/-- What is demanded of a concatenation. -/
def Mixed (prev : Option Value) (vs : List Value) : Prop :=
  prev = none ∧ ∃ s ws, vs = .str s :: ws ∧ ∀ w ∈ ws, (∃ t, w = .str t) ∨ ∃ p o, w = .ref none p o

/-- The shape of parsed values. -/
def parsed : Rule := ⟨fun k => k ≠ [] ∧ IsText k, fun s => s ≠ [] ∧ IsText s, RefText, fun _ _ => False, Mixed⟩

theorem made_iff {v : Value} : Made v ↔ AllSound parsed v := by
  unfold Made AllSound
  refine forall_congr' fun u => imp_congr_right fun _ => ?_
  cases u <;> exact Iff.rfl

theorem shape_array {cv : Parser UInt8 Value} (h : Yields cv Made) : Yields (arrayConfigValue cv) Made :=
  Yields.map ((Yields.surround (Yields.many0Sep h)).imp fun _ h =>
    made_iff.2 (allSound_arr.2 fun v hv => made_iff.1 (h v hv)))

/-- A key and a value of the grammar. -/
def MadeEntry (e : Bytes × Value) : Prop := (e.1 ≠ [] ∧ IsText e.1) ∧ Made e.2

theorem shape_object {prop : Parser UInt8 (Bytes × Value)} (h : Yields prop MadeEntry) :
    Yields (objectConfigValue prop) Made :=
  Yields.map (Yields.map ((Yields.surround (Yields.many0Sep h)).imp fun _ h =>
    made_iff.2 (allSound_objectFold fun e he => ⟨(h e he).1, made_iff.1 (h e he).2⟩)))

theorem shape_property {cv : Parser UInt8 Value} {prop : Parser UInt8 (Bytes × Value)} (h : Yields cv Made)
    (h' : Yields prop MadeEntry) : Yields (property cv prop) MadeEntry :=
  Yields.andThen yields_key_ne (Yields.or (Yields.or (Yields.attempt (Yields.skipLeft h))
    (Yields.attempt (shape_object h'))) (shape_array h))

/-- A reference as it is written. -/
def WrittenRef (v : Value) : Prop := ∃ p o, v = .ref none p o ∧ RefText p

theorem made_writtenRef {v : Value} (h : WrittenRef v) : Made v := by
  obtain ⟨p, o, rfl, hp⟩ := h
  exact made_iff.2 (allSound_ref.2 ⟨hp, by simp⟩)

/-- A string that is not empty. -/
def WrittenStr (v : Value) : Prop := ∃ s, v = .str s ∧ s ≠ [] ∧ IsText s

theorem made_writtenStr {v : Value} (h : WrittenStr v) : Made v := by
  obtain ⟨s, rfl, hs⟩ := h
  exact made_iff.2 (allSound_str.2 hs)

theorem shape_reference : Yields referenceConfigValue WrittenRef :=
  Yields.map ((Yields.surround (Yields.andThen (P := fun _ => True) Yields.any yields_refText)).imp fun _ h =>
    ⟨_, _, rfl, h.2⟩)

theorem shape_string : Yields stringConfigValue WrittenStr :=
  Yields.map ((yields_string_ne.and yields_string).imp fun _ h => ⟨_, rfl, h⟩)

theorem attempt_fails {A : Type} {p : Parser UInt8 A} {s : State UInt8} {e : PError UInt8}
    (h : attempt p s = .failure e .uncommitted) : ∀ v k, p s ≠ .success v k := by
  intro v k hs
  unfold attempt at h
  rw [hs] at h
  cases h

theorem enumeration_first {s : State UInt8} {v : Value} {k : Nat}
    (h : enumerationConfigValue s = .success v k) (hr : ∀ v k, referenceConfigValue s ≠ .success v k) : Made v := by
  obtain ⟨vs, h1, rfl⟩ : ∃ vs, many1 (or (attempt stringConfigValue) referenceConfigValue) s = .success vs k ∧
      v = .enumeration none vs := by
    obtain ⟨vs, h1, h2⟩ := map_success h
    exact ⟨vs, h1, h2⟩
  have hall : ∀ v ∈ vs, WrittenStr v ∨ WrittenRef v :=
    (Yields.many1 (Yields.or (Yields.attempt (shape_string.imp fun _ h => .inl h)) (shape_reference.imp fun _ h => .inr h)))
      s vs k h1
  obtain ⟨u, us, n, h2, rfl⟩ := many1_first h1
  rcases or_success_left h2 with h3 | ⟨-, h3⟩
  · obtain ⟨t, rfl, ht⟩ := shape_string s u n (attempt_success h3)
    refine made_iff.2 (allSound_enum.2 ⟨⟨rfl, t, us, rfl, fun w hw => ?_⟩, fun w hw => ?_, by simp⟩)
    · rcases hall w (List.mem_cons_of_mem _ hw) with ⟨x, rfl, -⟩ | ⟨p, o, rfl, -⟩
      · exact .inl ⟨x, rfl⟩
      · exact .inr ⟨p, o, rfl⟩
    · rcases hall w hw with h | h
      · exact made_iff.1 (made_writtenStr h)
      · exact made_iff.1 (made_writtenRef h)
  · exact absurd h3 (hr _ _)

theorem made_constant {v : Value} (h : Constant v) (hs : ∀ s, v ≠ .str s) : Made v := by
  intro u hu
  cases v with
  | str s => exact absurd rfl (hs s)
  | _ => first | exact h.elim | (cases hu; trivial)

theorem shape_simple (S : Std) : Yields (simpleConfigValue S) Made :=
  Yields.surround (Yields.or (Yields.or (Yields.or (Yields.or (Yields.or
    (Yields.attempt (Yields.map (Yields.any.imp fun _ _ => made_constant trivial (by simp))))
    (Yields.attempt (Yields.map (Yields.any.imp fun _ _ => made_constant trivial (by simp)))))
    (Yields.attempt (Yields.map (Yields.any.imp fun _ _ => made_constant trivial (by simp)))))
    (Yields.attempt (Yields.map (Yields.any.imp fun _ _ => made_constant trivial (by simp)))))
    (Yields.attempt (Yields.map (Yields.any.imp fun _ _ => made_constant trivial (by simp)))))
    (shape_string.imp fun _ => made_writtenStr))

theorem shape_configValue (S : Std) {cv : Parser UInt8 Value} {prop : Parser UInt8 (Bytes × Value)} (h : Yields cv Made)
    (h' : Yields prop MadeEntry) : Yields (configValue S cv prop) Made := by
  refine Yields.surround fun s v k hv => ?_
  rcases or_success_left hv with hv | ⟨⟨e, hf⟩, hv⟩
  · exact Yields.or (Yields.or (Yields.or (Yields.attempt (shape_array h)) (Yields.attempt (shape_object h')))
      (Yields.attempt (shape_reference.imp fun _ => made_writtenRef))) (Yields.attempt (shape_simple S)) s v k hv
  · refine enumeration_first hv fun w j hw => ?_
    obtain ⟨⟨e1, h1⟩, -⟩ := or_fails_both hf
    exact attempt_fails (or_fails_both h1).2 w j hw

theorem shape_grammar (S : Std) (n : Nat) : Yields (grammar S n).1 Made ∧ Yields (grammar S n).2 MadeEntry := by
  induction n with
  | zero => exact ⟨Yields.diverging, Yields.diverging⟩
  | succ n ih => exact ⟨shape_configValue S (Yields.lazy ih.1) (Yields.lazy ih.2),
      shape_property (Yields.lazy ih.1) (Yields.lazy ih.2)⟩

theorem shape_include : Yields includeConfigValue IsInclude := by
  refine Yields.map ((Yields.andThen (P := fun m => m = bytes "file" ∨ m = bytes "url") (Yields.skipLeft ?_)
    (Yields.surround yields_refText)).imp fun v h => ⟨v.1, v.2, h.1, h.2, rfl⟩)
  refine Yields.mapRes (Yields.map ((yields_collect (Q := fun m => m = bytes "file" ∨ m = bytes "url")
    fun t rest a h => ?_).imp fun v hv w hw => ?_))
  · rcases eats_or.1 h with h | ⟨-, h⟩
    · exact .inl (eats_seq.1 h).1
    · exact .inr (eats_seq.1 h).1
  · unfold fromUtf8 at hw
    split at hw
    · cases hw; exact hv
    · cases hw

theorem block_object {prop : Parser UInt8 (Bytes × Value)} : Yields (objectConfigValue prop) IsBlock :=
  Yields.map (f := Value.obj) (R := IsBlock) (Yields.any.imp fun _ _ => trivial)

theorem block_array {cv : Parser UInt8 Value} : Yields (arrayConfigValue cv) IsBlock :=
  Yields.map (f := Value.arr) (R := IsBlock) (Yields.any.imp fun _ _ => trivial)

theorem configFold_ne {ps : Entries} (h : ps ≠ []) : configFold ps ≠ [] := by
  obtain ⟨e, ps, rfl⟩ := List.exists_cons_of_ne_nil h
  intro hc
  have := get_configFold e.1 (e :: ps)
  rw [hc] at this
  simp [get, definitions] at this

theorem shape_hocon (S : Std) (n : Nat) : Yields (hocon S n) Document := by
  obtain ⟨h, h'⟩ := shape_grammar S n
  refine Yields.skipRight (Yields.skipLeft (Yields.or (Yields.or (Yields.attempt (Yields.map
    ((Yields.many1_ne h').imp fun ps hp => ?_))) (Yields.attempt ((Yields.many1_ne shape_include).imp fun vs hv =>
      .includes hv.1 hv.2))) ((Yields.many0 (P := fun v => IsBlock v ∧ Made v) (Yields.or (Yields.attempt (block_object.and (shape_object h')))
      (block_array.and (shape_array h)))).imp fun vs hv => .blocks hv)))
  refine .settings ?_ (made_iff.2 (allSound_configFold fun e he => ⟨(hp.2 e he).1, made_iff.1 (hp.2 e he).2⟩))
  exact configFold_ne hp.1

/-! ### Values that can be resolved -/

variable {var : Bytes → Option Bytes} {doc : Value} {P : Rule}

theorem plain_of (hincl : ∀ m f, ¬ P.incl m f) : ∀ v, AllSound P v → (∀ q, Mentions v q → PathText q) →
    (∀ prev us, Part (.enumeration prev us) v → (∀ u ∈ us, ∀ w, Resolved var doc u w → ∃ s, w = .str s) ∧
      ∃ s, s ≠ [] ∧ .str s ∈ us) →
    (∀ q, Demands v q → Missing doc q → ∃ s, var q = some s) → Plain var doc v := by
  have key : ∀ n v, sizeOf v < n → AllSound P v → (∀ q, Mentions v q → PathText q) →
      (∀ prev us, Part (.enumeration prev us) v → (∀ u ∈ us, ∀ w, Resolved var doc u w → ∃ s, w = .str s) ∧
        ∃ s, s ≠ [] ∧ .str s ∈ us) →
      (∀ q, Demands v q → Missing doc q → ∃ s, var q = some s) → Plain var doc v := by
    intro n
    induction n with
    | zero => intro v h; omega
    | succ n ih =>
      intro v hn hv hm hc hd
      cases v with
      | null => exact .constant trivial
      | bool _ => exact .constant trivial
      | str _ => exact .constant trivial
      | num _ => exact .constant trivial
      | dur _ _ => exact .constant trivial
      | incl m f => exact absurd (allSound_incl.1 hv) (hincl m f)
      | arr vs =>
        refine .arr fun v hmem => ?_
        have := List.sizeOf_lt_of_mem hmem
        exact ih v (by simp only [Value.arr.sizeOf_spec] at hn; omega) (allSound_arr.1 hv v hmem)
          (fun q hq => hm q (.elem hmem hq)) (fun prev us hu => hc prev us (.elem hmem hu)) (fun q hq => hd q (.elem hmem hq))
      | obj es =>
        refine .obj fun e he => ?_
        have := List.sizeOf_lt_of_mem he
        have h2 : sizeOf e = 1 + sizeOf e.1 + sizeOf e.2 := rfl
        exact ih e.2 (by simp only [Value.obj.sizeOf_spec] at hn; omega) ((allSound_obj.1 hv).2 e he).2
          (fun q hq => hm q (.value he hq)) (fun prev us hu => hc prev us (.value he hu)) (fun q hq => hd q (.value he hq))
      | link p v =>
        simp only [Value.link.sizeOf_spec] at hn
        exact .link
          (ih p (by omega) (allSound_link.1 hv).1 (fun q hq => hm q (.older hq)) (fun prev us hu => hc prev us (.older hu))
            (fun q hq => hd q (.older hq)))
          (ih v (by omega) (allSound_link.1 hv).2 (fun q hq => hm q (.newer hq)) (fun prev us hu => hc prev us (.newer hu))
            (fun q hq => hd q (.newer hq)))
      | ref prev path o =>
        refine .ref (hm _ .ref) fun _ hmi => ?_
        by_cases hdef : HasDefault prev o
        · exact .inr hdef
        · exact .inl (hd path (.ref hdef) hmi)
      | enumeration prev us =>
        obtain ⟨h1, h2⟩ := hc prev us .refl
        refine .concat (fun u hu => ?_) h1 h2
        have := List.sizeOf_lt_of_mem hu
        exact ih u (by simp only [Value.enumeration.sizeOf_spec] at hn; omega) ((allSound_enum.1 hv).2.1 u hu)
          (fun q hq => hm q (.part hu hq)) (fun prev us hu' => hc prev us (.piece hu hu')) (fun q hq => hd q (.part hu hq))
  exact fun v => key _ v (Nat.lt_succ_self _)

end OniComb.Hocon
