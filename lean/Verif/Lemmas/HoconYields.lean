import Verif.Lemmas.HoconValue
import Verif.Lemmas.HoconExpand
import Verif.Lemmas.HoconResolve
import Verif.Lemmas.HoconLive
import Verif.Lemmas.Utf8
import Verif.Spec.HoconLoad

/-! Invariants of the values that come out of the `hocon` grammar, of expansion and of resolution: no map has
a repeated key, and every string satisfies a predicate that the grammar checks. -/

set_option linter.unusedSectionVars false

namespace OniComb.Hocon
open OniComb OniComb.Hocon.Spec
open OniComb.Uri (Bytes byte bytes fromUtf8 parseUInt mapUnwrap text validUtf8 validUtf8_iff utf8 utf8_append)

/-- What is demanded of keys, strings, paths of references, includes and concatenations. -/
structure Rule where
  key : Bytes → Prop
  text : Bytes → Prop
  path : Bytes → Prop
  incl : Bytes → Bytes → Prop
  parts : Option Value → List Value → Prop

variable {P : Rule}

/-- What is demanded of a single part of a value. -/
def Sound (P : Rule) : Value → Prop
  | .obj es => (keys es).Nodup ∧ ∀ e ∈ es, P.key e.1
  | .str s => P.text s
  | .ref _ p _ => P.path p
  | .incl m f => P.incl m f
  | .enumeration prev vs => P.parts prev vs
  | _ => True

/-- What is demanded of all parts of a value. -/
def AllSound (P : Rule) (v : Value) : Prop := ∀ u, Part u v → Sound P u

theorem allSound_null : AllSound P .null := by intro u h; cases h; trivial
theorem allSound_bool {b : Bool} : AllSound P (.bool b) := by intro u h; cases h; trivial
theorem allSound_num {d : Decimal} : AllSound P (.num d) := by intro u h; cases h; trivial
theorem allSound_dur {d : Decimal} {t : TimeUnit} : AllSound P (.dur d t) := by intro u h; cases h; trivial
theorem allSound_str {s : Bytes} : AllSound P (.str s) ↔ P.text s :=
  ⟨fun h => h _ .refl, fun h u hu => by cases hu; exact h⟩
theorem allSound_incl {m f : Bytes} : AllSound P (.incl m f) ↔ P.incl m f :=
  ⟨fun h => h _ .refl, fun h u hu => by cases hu; exact h⟩

theorem allSound_arr {vs : List Value} : AllSound P (.arr vs) ↔ ∀ v ∈ vs, AllSound P v := by
  refine ⟨fun h v hv u hu => h u (.elem hv hu), fun h u hu => ?_⟩
  cases hu with
  | refl => trivial
  | elem hv hu => exact h _ hv u hu

theorem allSound_obj {es : Entries} : AllSound P (.obj es) ↔
    (keys es).Nodup ∧ ∀ e ∈ es, P.key e.1 ∧ AllSound P e.2 := by
  refine ⟨fun h => ⟨(h _ .refl).1, fun e he => ⟨(h _ .refl).2 e he, fun u hu => h u (.value he hu)⟩⟩, fun h u hu => ?_⟩
  cases hu with
  | refl => exact ⟨h.1, fun e he => (h.2 e he).1⟩
  | value he hu => exact (h.2 _ he).2 u hu

theorem allSound_link {p v : Value} : AllSound P (.link p v) ↔ AllSound P p ∧ AllSound P v := by
  refine ⟨fun h => ⟨fun u hu => h u (.older hu), fun u hu => h u (.newer hu)⟩, fun h u hu => ?_⟩
  cases hu with
  | refl => trivial
  | older hu => exact h.1 u hu
  | newer hu => exact h.2 u hu

theorem allSound_ref {prev : Option Value} {path : Bytes} {o : Bool} : AllSound P (.ref prev path o) ↔
    P.path path ∧ ∀ p, prev = some p → AllSound P p := by
  refine ⟨fun h => ⟨h _ .refl, fun p hp u hu => h u (by subst hp; exact .refBefore hu)⟩, fun h u hu => ?_⟩
  cases hu with
  | refl => exact h.1
  | refBefore hu => exact h.2 _ rfl u hu

theorem allSound_enum {prev : Option Value} {vs : List Value} : AllSound P (.enumeration prev vs) ↔
    P.parts prev vs ∧ (∀ v ∈ vs, AllSound P v) ∧ ∀ p, prev = some p → AllSound P p := by
  refine ⟨fun h => ⟨h _ .refl, fun v hv u hu => h u (.piece hv hu),
    fun p hp u hu => h u (by subst hp; exact .pieceBefore hu)⟩, fun h u hu => ?_⟩
  cases hu with
  | refl => exact h.1
  | piece hv hu => exact h.2.1 _ hv u hu
  | pieceBefore hu => exact h.2.2 _ rfl u hu

/-! ### Combining values -/

theorem allSound_get {es : Entries} {k : Bytes} {v : Value} (h : AllSound P (.obj es)) (hg : get k es = some v) :
    P.key k ∧ AllSound P v := (allSound_obj.1 h).2 (k, v) (get_mem hg)

theorem allSound_obj_intro {es : Entries} (hn : (keys es).Nodup) (h : ∀ k v, get k es = some v → P.key k ∧ AllSound P v) :
    AllSound P (.obj es) :=
  allSound_obj.2 ⟨hn, fun e he => h e.1 e.2 (get_of_mem hn he)⟩

theorem allSound_remember {p v : Value} (hp : AllSound P p) (h : AllSound P v) : AllSound P (remember p v) := by
  cases v with
  | ref prev path o => exact allSound_ref.2 ⟨(allSound_ref.1 h).1, fun q hq => by cases hq; exact hp⟩
  | _ => exact h

theorem allSound_push {a b : Value} (ha : AllSound P a) (hb : AllSound P b) : AllSound P (push a b) := by
  rw [push_eq]
  exact allSound_link.2 ⟨ha, allSound_remember ha hb⟩

theorem allSound_insertNew {k : Bytes} {v : Value} {es : Entries} (hg : get k es = none) (h : AllSound P (.obj es))
    (hk : P.key k) (hv : AllSound P v) : AllSound P (.obj (insertNew k v es)) := by
  refine allSound_obj_intro (nodup_insertNew hg (allSound_obj.1 h).1) fun k' v' hg' => ?_
  rw [get_insertNew hg] at hg'
  by_cases hkk : k = k'
  · rw [if_pos hkk] at hg'
    cases hg'
    exact ⟨hkk ▸ hk, hv⟩
  · rw [if_neg hkk] at hg'
    exact allSound_get h hg'

theorem allSound_set {k : Bytes} {v : Value} {es : Entries} (h : AllSound P (.obj es)) (hv : AllSound P v) :
    AllSound P (.obj (set k v es)) := by
  refine allSound_obj_intro (by rw [keys_set]; exact (allSound_obj.1 h).1) fun k' v' hg' => ?_
  rw [get_set] at hg'
  by_cases hkk : k = k'
  · rw [if_pos hkk] at hg'
    cases hg : get k' es with
    | none => rw [hg] at hg'; cases hg'
    | some x => rw [hg] at hg'; cases hg'; exact ⟨(allSound_get h hg).1, hv⟩
  · rw [if_neg hkk] at hg'
    exact allSound_get h hg'

theorem allSound_merge (b : Value) : ∀ a, AllSound P a → AllSound P b → AllSound P (merge b a) := by
  intro a ha hb
  rcases merge_cases a b with ⟨a, b, rfl, rfl⟩ | ⟨a, b, rfl, rfl⟩ | ⟨hl, p, v, rfl⟩ | ⟨h1, h2, h3⟩
  · rw [merge_obj_obj]
    refine allSound_obj_intro (nodup_mergeEntries (allSound_obj.1 ha).1) fun k v hv => ?_
    rw [get_mergeEntries (allSound_obj.1 hb).1] at hv
    cases hkb : get k b with
    | none =>
      simp only [hkb] at hv
      exact allSound_get ha hv
    | some y =>
      simp only [hkb, Option.some.injEq] at hv
      cases hka : get k a with
      | none =>
        simp only [hka] at hv
        exact hv ▸ allSound_get hb hkb
      | some x =>
        simp only [hka] at hv
        have := sizeOf_get hkb
        exact ⟨(allSound_get ha hka).1, hv ▸ allSound_merge y x (allSound_get ha hka).2 (allSound_get hb hkb).2⟩
  · rw [merge_arr_arr]
    rw [allSound_arr] at ha hb ⊢
    intro v hv
    rcases List.mem_append.1 hv with h | h
    · exact ha v h
    · exact hb v h
  · rw [merge_link_left hl]
    exact allSound_push ha (allSound_merge b v (allSound_link.1 ha).2 hb)
  · rw [merge_keep h1 h2 h3]
    exact ha
termination_by a => (sizeOf b, sizeOf a)

theorem allSound_fold (f : Value → Value → Value) (hf : ∀ a b, AllSound P a → AllSound P b → AllSound P (f a b))
    (ps : List (Bytes × Value)) : ∀ es : Entries, AllSound P (.obj es) → (∀ e ∈ ps, P.key e.1 ∧ AllSound P e.2) →
    AllSound P (.obj (ps.foldl (fun es e => match get e.1 es with
      | none => insertNew e.1 e.2 es
      | some v => set e.1 (f v e.2) es) es)) := by
  induction ps with
  | nil => exact fun _ h _ => h
  | cons e ps ih =>
    intro es h hp
    rw [List.foldl_cons]
    have he := hp e (List.mem_cons_self ..)
    refine ih _ ?_ fun e' he' => hp e' (List.mem_cons_of_mem _ he')
    cases hg : get e.1 es with
    | none => exact allSound_insertNew hg h he.1 he.2
    | some v => exact allSound_set h (hf _ _ (allSound_get h hg).2 he.2)

theorem allSound_empty : AllSound P (.obj []) := allSound_obj.2 ⟨List.nodup_nil, by simp⟩

theorem allSound_objectFold {ps : List (Bytes × Value)} (h : ∀ e ∈ ps, P.key e.1 ∧ AllSound P e.2) :
    AllSound P (.obj (objectFold ps)) := allSound_fold push (fun _ _ => allSound_push) ps [] allSound_empty h

theorem allSound_configFold {ps : List (Bytes × Value)} (h : ∀ e ∈ ps, P.key e.1 ∧ AllSound P e.2) :
    AllSound P (.obj (configFold ps)) :=
  allSound_fold (fun a b => merge b a) (fun a b ha hb => allSound_merge b a ha hb) ps [] allSound_empty h

theorem allSound_wf : ∀ v, AllSound P v → Wf v := by
  have key : ∀ n v, sizeOf v < n → AllSound P v → Wf v := by
    intro n
    induction n with
    | zero => intro v h; omega
    | succ n ih =>
      intro v hv h
      cases v with
      | arr vs =>
        rw [Wf, wfList_iff]
        intro v hm
        have := List.sizeOf_lt_of_mem hm
        exact ih v (by simp only [Value.arr.sizeOf_spec] at hv; omega) (allSound_arr.1 h v hm)
      | obj es =>
        refine wf_obj.2 ⟨(allSound_obj.1 h).1, fun e he => ?_⟩
        have := List.sizeOf_lt_of_mem he
        have h2 : sizeOf e = 1 + sizeOf e.1 + sizeOf e.2 := rfl
        exact ih e.2 (by simp only [Value.obj.sizeOf_spec] at hv; omega) ((allSound_obj.1 h).2 e he).2
      | enumeration p vs =>
        rw [Wf, wfList_iff]
        intro v hm
        have := List.sizeOf_lt_of_mem hm
        exact ih v (by simp only [Value.enumeration.sizeOf_spec] at hv; omega) ((allSound_enum.1 h).2.1 v hm)
      | link p v =>
        simp only [Value.link.sizeOf_spec] at hv
        exact ⟨ih p (by omega) (allSound_link.1 h).1, ih v (by omega) (allSound_link.1 h).2⟩
      | _ => simp [Wf]
  exact fun v => key _ v (Nat.lt_succ_self _)

/-! ### The grammar -/

theorem isText_iff {s : Bytes} : IsText s ↔ validUtf8 s = true := validUtf8_iff.symm

theorem isText_append {s t : Bytes} (hs : IsText s) (ht : IsText t) : IsText (s ++ t) := by
  obtain ⟨cs, rfl⟩ := hs
  obtain ⟨ds, rfl⟩ := ht
  exact ⟨cs ++ ds, (utf8_append cs ds).symm⟩

theorem isText_nil : IsText [] := ⟨[], rfl⟩

theorem isText_flatten {ss : List Bytes} (h : ∀ s ∈ ss, IsText s) : IsText ss.flatten := by
  induction ss with
  | nil => exact isText_nil
  | cons s ss ih =>
    exact isText_append (h s (List.mem_cons_self ..)) (ih fun t ht => h t (List.mem_cons_of_mem _ ht))

theorem fromUtf8_text {bs s : Bytes} (h : fromUtf8 bs = some s) : IsText s := by
  unfold fromUtf8 at h
  by_cases hv : validUtf8 bs = true
  · rw [if_pos hv] at h; cases h; exact isText_iff.2 hv
  · rw [if_neg hv] at h; cases h

theorem yields_fromUtf8 {p : Parser UInt8 Bytes} : Yields (mapRes p fromUtf8) IsText :=
  Yields.mapRes fun _ _ _ _ _ => fromUtf8_text

theorem yields_text {A : Type} {p : Parser UInt8 A} : Yields (text p) IsText := yields_fromUtf8

theorem digitsLoop_le {radix max : Nat} : ∀ (bs : Bytes) (acc n : Nat), acc ≤ max →
    Uri.digitsLoop radix max acc bs = some n → n ≤ max := by
  intro bs
  induction bs with
  | nil => intro acc n ha h; cases h; exact ha
  | cons b bs ih =>
    intro acc n ha h
    unfold Uri.digitsLoop at h
    obtain ⟨d, -, h⟩ := Option.bind_eq_some_iff.1 h
    split at h
    · exact ih _ _ ‹_› h
    · cases h

theorem parseUInt_le {radix max n : Nat} {bs : Bytes} (h : parseUInt radix max bs = some n) : n ≤ max := by
  unfold parseUInt at h
  split at h
  · cases h
  · split at h
    · cases h
    · exact digitsLoop_le _ _ _ (Nat.zero_le _) h
  · split at h <;> exact digitsLoop_le _ _ _ (Nat.zero_le _) h

theorem yields_utf16Char : Yields utf16Char fun u => u < 0x10000 :=
  Yields.skipLeft (Yields.mapRes fun _ _ _ _ _ hw => Nat.lt_succ_of_le (parseUInt_le hw))

theorem yields_utf16String : Yields utf16String IsText :=
  Yields.map ((Yields.many1 yields_utf16Char).imp fun us h => by
    obtain ⟨cs, hcs⟩ := Uri.utf16_utf8 h
    exact ⟨cs, hcs⟩)

theorem yields_charString : Yields charString IsText := yields_fromUtf8

theorem yields_stringSurround : Yields stringSurround fun ss => ∀ s ∈ ss, IsText s :=
  Yields.many1 (Yields.or (Yields.attempt yields_charString) yields_utf16String)

theorem yields_string : Yields string IsText :=
  Yields.map ((Yields.or (Yields.or (Yields.attempt (Yields.surround yields_stringSurround))
    (Yields.attempt (Yields.surround yields_stringSurround))) yields_stringSurround).imp fun _ h => isText_flatten h)

theorem yields_path : Yields path IsText := yields_text

theorem yields_key : Yields key IsText := Yields.surround (Yields.or (Yields.attempt yields_path) yields_string)

/-- Values from the grammar. -/
abbrev Clean (v : Value) : Prop := AllSound ⟨IsText, IsText, IsText, fun m f => IsText m ∧ IsText f, fun _ _ => True⟩ v

theorem yields_array {cv : Parser UInt8 Value} (h : Yields cv Clean) : Yields (arrayConfigValue cv) Clean :=
  Yields.map ((Yields.surround (Yields.many0Sep h)).imp fun _ h => allSound_arr.2 h)

theorem yields_object {prop : Parser UInt8 (Bytes × Value)} (h : Yields prop fun e => IsText e.1 ∧ Clean e.2) :
    Yields (objectConfigValue prop) Clean :=
  Yields.map (Yields.map ((Yields.surround (Yields.many0Sep h)).imp fun _ h => allSound_objectFold h))

theorem yields_property {cv : Parser UInt8 Value} {prop : Parser UInt8 (Bytes × Value)} (h : Yields cv Clean)
    (h' : Yields prop fun e => IsText e.1 ∧ Clean e.2) : Yields (property cv prop) fun e => IsText e.1 ∧ Clean e.2 :=
  Yields.andThen yields_key (Yields.or (Yields.or (Yields.attempt (Yields.skipLeft h))
    (Yields.attempt (yields_object h'))) (yields_array h))

theorem yields_reference : Yields referenceConfigValue Clean :=
  Yields.map ((Yields.surround (Yields.andThen (P := fun _ => True) Yields.any yields_text)).imp fun _ h =>
    allSound_ref.2 ⟨h.2, by intro p hp; cases hp⟩)

theorem yields_stringConfigValue : Yields stringConfigValue Clean :=
  Yields.map (yields_string.imp fun _ h => allSound_str.2 h)

theorem yields_enumeration : Yields enumerationConfigValue Clean :=
  Yields.map ((Yields.many1 (Yields.or (Yields.attempt yields_stringConfigValue) yields_reference)).imp fun _ h =>
    allSound_enum.2 ⟨trivial, h, by intro p hp; cases hp⟩)

theorem yields_simple (S : Std) : Yields (simpleConfigValue S) Clean :=
  Yields.surround (Yields.or (Yields.or (Yields.or (Yields.or (Yields.or
    (Yields.attempt (Yields.map (Yields.any.imp fun _ _ => allSound_null)))
    (Yields.attempt (Yields.map (Yields.any.imp fun _ _ => allSound_bool))))
    (Yields.attempt (Yields.map (Yields.any.imp fun _ _ => allSound_bool))))
    (Yields.attempt (Yields.map (Yields.any.imp fun _ _ => allSound_dur))))
    (Yields.attempt (Yields.map (Yields.any.imp fun _ _ => allSound_num)))) yields_stringConfigValue)

theorem yields_configValue (S : Std) {cv : Parser UInt8 Value} {prop : Parser UInt8 (Bytes × Value)} (h : Yields cv Clean)
    (h' : Yields prop fun e => IsText e.1 ∧ Clean e.2) : Yields (configValue S cv prop) Clean :=
  Yields.surround (Yields.or (Yields.or (Yields.or (Yields.or (Yields.attempt (yields_array h))
    (Yields.attempt (yields_object h'))) (Yields.attempt yields_reference)) (Yields.attempt (yields_simple S)))
    yields_enumeration)

theorem yields_grammar (S : Std) (n : Nat) : Yields (grammar S n).1 Clean ∧
    Yields (grammar S n).2 fun e => IsText e.1 ∧ Clean e.2 := by
  induction n with
  | zero => exact ⟨Yields.diverging, Yields.diverging⟩
  | succ n ih => exact ⟨yields_configValue S (Yields.lazy ih.1) (Yields.lazy ih.2),
      yields_property (Yields.lazy ih.1) (Yields.lazy ih.2)⟩

theorem yields_include : Yields includeConfigValue Clean := by
  refine Yields.map ((Yields.andThen (Yields.skipLeft (yields_text)) (Yields.surround yields_path)).imp fun v h => ?_)
  refine allSound_incl.2 ⟨h.1, ?_⟩
  exact isText_append (s := byte '"' :: _) (isText_append (s := [byte '"']) ⟨['"'], by decide⟩ h.2) ⟨['"'], by decide⟩

theorem yields_hocon (S : Std) (n : Nat) : Yields (hocon S n) fun vs => ∀ v ∈ vs, Clean v := by
  obtain ⟨h, h'⟩ := yields_grammar S n
  refine Yields.skipRight (Yields.skipLeft (Yields.or (Yields.or (Yields.attempt (Yields.map
    ((Yields.many1 h').imp fun ps hp => ?_))) (Yields.attempt (Yields.many1 yields_include)))
    (Yields.many0 (Yields.or (Yields.attempt (yields_object h')) (yields_array h)))))
  intro v hv
  rw [List.mem_singleton] at hv
  exact hv ▸ allSound_configFold hp

theorem parse_ok_yields {A : Type} {p : Parser UInt8 A} {Q : A → Prop} (h : Yields p Q) {t : Bytes} {v : A}
    (hp : parse p t = .ok v) : Q v := by
  unfold parse at hp
  cases hr : p ⟨t, 0⟩ with
  | success w k => rw [hr] at hp; cases hp; exact h _ _ _ hr
  | failure e c => rw [hr] at hp; cases hp
  | panic => rw [hr] at hp; cases hp
  | diverge => rw [hr] at hp; cases hp

/-! ### Expansion and resolution -/

theorem allSound_latest {v : Value} (h : AllSound P v) : AllSound P (latest v) := by
  cases v with
  | link p v => exact (allSound_link.1 h).2
  | _ => exact h

theorem allSound_prevLatest {v : Value} (h : AllSound P v) : AllSound P (prevLatest v) := by
  cases v with
  | link p v =>
    have hp := (allSound_link.1 h).1
    cases p with
    | link q w => exact (allSound_link.1 hp).2
    | _ => exact hp
  | _ => exact h

theorem encode_no_dot {c : Char} (hc : c ≠ '.') : ∀ b ∈ String.utf8EncodeChar c, b ≠ byte '.' := by
  have hv : c.val.toNat ≠ 46 := fun h => hc (Char.ext (UInt32.toNat_inj.1 h))
  unfold String.utf8EncodeChar
  generalize c.val.toNat = v at hv
  have key : ∀ n : Nat, n < 256 → n ≠ 46 → UInt8.ofNat n ≠ byte '.' := by
    intro n hn hne h
    have := congrArg UInt8.toNat h
    rw [UInt8.toNat_ofNat', Nat.mod_eq_of_lt hn] at this
    exact hne this
  intro b hb
  dsimp only at hb
  split at hb
  · simp only [List.mem_cons, List.not_mem_nil, or_false] at hb
    subst hb
    exact key _ (by omega) hv
  · split at hb
    · simp only [List.mem_cons, List.not_mem_nil, or_false] at hb
      rcases hb with rfl | rfl <;> exact key _ (by omega) (by omega)
    · split at hb
      · simp only [List.mem_cons, List.not_mem_nil, or_false] at hb
        rcases hb with rfl | rfl | rfl <;> exact key _ (by omega) (by omega)
      · simp only [List.mem_cons, List.not_mem_nil, or_false] at hb
        rcases hb with rfl | rfl | rfl | rfl <;> exact key _ (by omega) (by omega)

theorem splitDot_cons_exists (s : Bytes) : ∃ h t, splitDot s = h :: t := by
  cases s with
  | nil => exact ⟨_, _, rfl⟩
  | cons b s =>
    unfold splitDot
    split
    · exact ⟨_, _, rfl⟩
    · split <;> exact ⟨_, _, rfl⟩

theorem splitDot_prefix {a r : Bytes} (ha : ∀ b ∈ a, b ≠ byte '.') {h : Bytes} {t : List Bytes} (hr : splitDot r = h :: t) :
    splitDot (a ++ r) = (a ++ h) :: t := by
  induction a with
  | nil => exact hr
  | cons b a ih =>
    rw [List.cons_append, splitDot, if_neg (ha b (List.mem_cons_self ..)),
      ih fun x hx => ha x (List.mem_cons_of_mem _ hx)]
    rfl

theorem isText_splitDot {s : Bytes} (h : IsText s) : ∀ k ∈ splitDot s, IsText k := by
  obtain ⟨cs, rfl⟩ := h
  induction cs with
  | nil =>
    intro k hk
    simp only [List.flatMap_nil, splitDot, List.mem_singleton] at hk
    exact hk ▸ isText_nil
  | cons c cs ih =>
    intro k hk
    rw [List.flatMap_cons] at hk
    by_cases hc : c = '.'
    · subst hc
      rw [show String.utf8EncodeChar '.' = [byte '.'] by decide, List.singleton_append, splitDot, if_pos rfl] at hk
      rcases List.mem_cons.1 hk with rfl | hk
      · exact isText_nil
      · exact ih k hk
    · obtain ⟨h, t, ht⟩ := splitDot_cons_exists (cs.flatMap String.utf8EncodeChar)
      rw [splitDot_prefix (encode_no_dot hc) ht] at hk
      rw [ht] at ih
      rcases List.mem_cons.1 hk with rfl | hk
      · exact isText_append ⟨[c], by simp⟩ (ih h (List.mem_cons_self ..))
      · exact ih k (List.mem_cons_of_mem _ hk)

/-- What is demanded of a key is so for the pieces of a dotted key. -/
def SplitDot (P : Rule) : Prop := ∀ k, P.key k → ∀ s ∈ splitDot k, P.key s

theorem clean_single {k : Bytes} {v : Value} (hk : P.key k) (hv : AllSound P v) : AllSound P (.obj [(k, v)]) :=
  allSound_obj.2 ⟨by simp [keys], by simpa using ⟨hk, hv⟩⟩

theorem clean_nestFold {ks : List Bytes} (hk : ∀ k ∈ ks, P.key k) : ∀ v, AllSound P v →
    AllSound P (ks.foldl (fun o k => .obj [(k, o)]) v) := by
  induction ks with
  | nil => exact fun _ h => h
  | cons k ks ih =>
    intro v hv
    exact ih (fun k' hk' => hk k' (List.mem_cons_of_mem _ hk')) _ (clean_single (hk k (List.mem_cons_self ..)) hv)

theorem clean_nestKey (hd : SplitDot P) {k : Bytes} {v : Value} (hk : P.key k) (hv : AllSound P v) :
    P.key (nestKey k v).1 ∧ AllSound P (nestKey k v).2 := by
  have hs := hd k hk
  unfold nestKey
  have hr : ∀ x ∈ (splitDot k).reverse, P.key x := fun x hx => hs x (List.mem_reverse.1 hx)
  split
  · rename_i he
    obtain ⟨a, as, ha⟩ := splitDot_cons_exists k
    rw [ha] at he
    simp at he
  · rename_i k0 ks he
    rw [he] at hr
    refine ⟨?_, clean_nestFold (fun x hx => hr x (List.mem_cons_of_mem _ (List.dropLast_subset _ hx))) _
      (clean_single (hr k0 (List.mem_cons_self ..)) hv)⟩
    rw [List.getLastD_eq_getLast?, List.getLast?_eq_some_getLast (by simp)]
    exact hr _ (List.getLast_mem _)

variable {env : Env}

mutual
theorem clean_expand (hs : SplitDot P) (hl : ∀ m f v, P.incl m f → env.load f = .ok v → AllSound P v) (v w : Value) (hv : AllSound P v)
    (h : expand env v = .ok w) : AllSound P w := by
  match v with
  | .incl m f => rw [expand] at h; exact hl _ _ _ (allSound_incl.1 hv) h
  | .obj es =>
    rw [expand] at h
    obtain ⟨new, h1, h2⟩ := bind_eq_ok.1 h
    cases h2
    have := clean_expandEntries hs hl es [] new (fun e he => (allSound_obj.1 hv).2 e he) allSound_empty h1
    split
    · exact hv
    · exact this
  | .null | .bool _ | .str _ | .num _ | .dur _ _ | .arr _ | .enumeration _ _ | .ref _ _ _ | .link _ _ =>
    simp only [expand, Out.ok.injEq] at h
    exact h ▸ hv
theorem clean_expandEntries (hs : SplitDot P) (hl : ∀ m f v, P.incl m f → env.load f = .ok v → AllSound P v) (es new new' : Entries)
    (he : ∀ e ∈ es, P.key e.1 ∧ AllSound P e.2) (hn : AllSound P (.obj new)) (h : expandEntries env es new = .ok new') :
    AllSound P (.obj new') := by
  match es with
  | [] => rw [expandEntries] at h; cases h; exact hn
  | e :: es =>
    rw [expandEntries] at h
    obtain ⟨mid, h1, h2⟩ := bind_eq_ok.1 h
    exact clean_expandEntries hs hl es mid new' (fun x hx => he x (List.mem_cons_of_mem _ hx))
      (clean_expandEntry hs hl e new mid (he e (List.mem_cons_self ..)) hn h1) h2
theorem clean_expandEntry (hs : SplitDot P) (hl : ∀ m f v, P.incl m f → env.load f = .ok v → AllSound P v) (e : Bytes × Value) (new new' : Entries)
    (he : P.key e.1 ∧ AllSound P e.2) (hn : AllSound P (.obj new)) (h : expandEntry env e new = .ok new') :
    AllSound P (.obj new') := by
  match e with
  | (k, v) =>
    rw [expandEntry] at h
    by_cases hd : byte '.' ∈ k
    · rw [if_pos hd] at h
      obtain ⟨mcv, h1, h2⟩ := bind_eq_ok.1 h
      have hm := clean_expand hs hl v mcv he.2 h1
      obtain ⟨ha, hb⟩ := clean_nestKey hs he.1 hm
      dsimp only at h2
      cases hg : get (nestKey k mcv).1 new with
      | none => rw [hg] at h2; cases h2; exact allSound_insertNew hg hn ha hb
      | some x =>
        rw [hg] at h2; cases h2
        exact allSound_set hn (allSound_merge _ _ (allSound_get hn hg).2 hb)
    · rw [if_neg hd] at h; cases h; exact hn
end

theorem clean_mergeAll (hs : SplitDot P) (hl : ∀ m f v, P.incl m f → env.load f = .ok v → AllSound P v) : ∀ (vs : List Value) (a w : Value), AllSound P a →
    (∀ v ∈ vs, AllSound P v) → mergeAll env a vs = .ok w → AllSound P w := by
  intro vs
  induction vs with
  | nil => intro a w ha _ h; cases h; exact ha
  | cons v vs ih =>
    intro a w ha hv h
    obtain ⟨t, h1, h2⟩ := bind_eq_ok.1 h
    exact ih _ w (allSound_merge _ _ ha (clean_expand hs hl v t (hv v (List.mem_cons_self ..)) h1))
      (fun x hx => hv x (List.mem_cons_of_mem _ hx)) h2

theorem clean_stage0 (hs : SplitDot P) (hl : ∀ m f v, P.incl m f → env.load f = .ok v → AllSound P v) {vs : List Value} {w : Value}
    (hv : ∀ v ∈ vs, AllSound P v) (h : resolveStage0 env vs = .ok w) : AllSound P w := by
  cases vs with
  | nil => cases h
  | cons v vs =>
    obtain ⟨t, h1, h2⟩ := bind_eq_ok.1 h
    exact clean_mergeAll hs hl vs t w (clean_expand hs hl v t (hv v (List.mem_cons_self ..)) h1)
      (fun x hx => hv x (List.mem_cons_of_mem _ hx)) h2

theorem clean_descend {ss : List Bytes} : ∀ {v w : Value}, AllSound P v → descend ss v = some w → AllSound P w := by
  induction ss with
  | nil => intro v w hv h; cases h; exact hv
  | cons k ss ih =>
    intro v w hv h
    cases v with
    | obj es =>
      obtain ⟨x, h1, h2⟩ := Option.bind_eq_some_iff.1 h
      exact ih (allSound_latest (allSound_get hv h1).2) h2
    | _ => cases h

theorem mapOut_forall {A B : Type} {f : A → Out B} {R : B → Prop} : ∀ {as : List A} {bs : List B},
    mapOut f as = .ok bs → (∀ a ∈ as, ∀ b, f a = .ok b → R b) → ∀ b ∈ bs, R b := by
  intro as
  induction as with
  | nil => intro bs h _; cases h; simp
  | cons a as ih =>
    intro bs h hf
    obtain ⟨b, h1, h2⟩ := bind_eq_ok.1 h
    obtain ⟨bs', h3, h4⟩ := bind_eq_ok.1 h2
    cases h4
    intro x hx
    rcases List.mem_cons.1 hx with rfl | hx
    · exact hf a (List.mem_cons_self ..) _ h1
    · exact ih h3 (fun a ha => hf a (List.mem_cons_of_mem _ ha)) x hx

theorem mapOut_keys {f : Value → Out Value} : ∀ {es fs : Entries},
    mapOut (fun e : Bytes × Value => (f e.2).bind fun v => .ok (e.1, v)) es = .ok fs → keys fs = keys es := by
  intro es
  induction es with
  | nil => intro fs h; cases h; rfl
  | cons e es ih =>
    intro fs h
    obtain ⟨b, h1, h2⟩ := bind_eq_ok.1 h
    obtain ⟨bs', h3, h4⟩ := bind_eq_ok.1 h2
    obtain ⟨v, h5, h6⟩ := bind_eq_ok.1 h1
    cases h4
    cases h6
    have := ih h3
    simp only [keys, List.map_cons] at this ⊢
    rw [this]

theorem clean_pushAll {f : Value → Out Value} (hf : ∀ v w, Clean v → f v = .ok w → Clean w) : ∀ (vs : List Value) (a w : Value),
    Clean a → (∀ v ∈ vs, Clean v) → pushAll f a vs = .ok w → Clean w := by
  intro vs
  induction vs with
  | nil => intro a w ha _ h; cases h; exact ha
  | cons v vs ih =>
    intro a w ha hv h
    obtain ⟨t, h1, h2⟩ := bind_eq_ok.1 h
    exact ih _ w (allSound_push ha (hf _ _ (hv v (List.mem_cons_self ..)) h1))
      (fun x hx => hv x (List.mem_cons_of_mem _ hx)) h2

theorem clean_toVec : ∀ v, AllSound P v → ∀ x ∈ toVec v, AllSound P x
  | .link p v, h => by
    intro x hx
    rw [toVec] at hx
    rcases List.mem_append.1 hx with hx | hx
    · exact clean_toVec p (allSound_link.1 h).1 x hx
    · rw [List.mem_singleton] at hx; exact hx ▸ (allSound_link.1 h).2
  | .null, h | .bool _, h | .str _, h | .num _, h | .dur _ _, h | .arr _, h | .obj _, h | .enumeration _ _, h
  | .ref _ _ _, h | .incl _ _, h => by
    intro x hx
    simp only [toVec, List.mem_singleton] at hx
    exact hx ▸ h

theorem clean_resolve (hl : ∀ f v, env.load f = .ok v → Clean v) (hvar : ∀ p s, env.var p = some s → IsText s)
    {source : Value} (hs : Clean source) : ∀ n v w, Clean v → resolve env source n v = .ok w → Clean w := by
  intro n
  induction n with
  | zero => intro v w _ h; cases h
  | succ n ih =>
    intro v w hv h
    rw [resolve.eq_def] at h
    cases v with
    | incl m f => exact hl _ _ h
    | link p v =>
      have hc := clean_toVec _ hv
      dsimp only at h
      cases ht : toVec (.link p v) with
      | nil => rw [ht] at h; cases h; exact hv
      | cons c cs =>
        rw [ht] at h hc
        obtain ⟨hd, h1, h2⟩ := bind_eq_ok.1 h
        exact clean_pushAll ih cs hd w (ih _ _ (hc c (List.mem_cons_self ..)) h1)
          (fun x hx => hc x (List.mem_cons_of_mem _ hx)) h2
    | arr vs =>
      obtain ⟨ws, h1, h2⟩ := bind_eq_ok.1 h
      cases h2
      exact allSound_arr.2 (mapOut_forall h1 fun a ha b hb => ih a b (allSound_arr.1 hv a ha) hb)
    | obj es =>
      obtain ⟨fs, h1, h2⟩ := bind_eq_ok.1 h
      cases h2
      refine allSound_obj.2 ⟨by rw [mapOut_keys h1]; exact (allSound_obj.1 hv).1, ?_⟩
      refine mapOut_forall h1 fun a ha b hb => ?_
      obtain ⟨x, h3, h4⟩ := bind_eq_ok.1 hb
      cases h4
      exact ⟨((allSound_obj.1 hv).2 a ha).1, ih _ _ ((allSound_obj.1 hv).2 a ha).2 h3⟩
    | enumeration prev vs =>
      obtain ⟨ws, h1, h2⟩ := bind_eq_ok.1 h
      have hw := mapOut_forall h1 fun a ha b hb => ih a b ((allSound_enum.1 hv).2.1 a ha) hb
      dsimp only at h2
      split at h2
      · cases prev with
        | none => cases h2
        | some p => cases h2; exact allSound_prevLatest ((allSound_enum.1 hv).2.2 p rfl)
      · cases h2
        refine allSound_str.2 ?_
        rw [List.flatMap_def]
        refine isText_flatten fun s hs => ?_
        obtain ⟨x, hx, rfl⟩ := List.mem_map.1 hs
        have := hw x hx
        cases x with
        | str s => exact allSound_str.1 this
        | _ => exact isText_nil
    | ref prev path o =>
      obtain ⟨found, h1, h2⟩ := bind_eq_ok.1 h
      have hf : ∀ x, found = some x → Clean x := by
        intro x hx
        have := getValueN_ok _ _ _ _ h1
        exact clean_descend hs (this ▸ hx)
      cases hfo : found.or ((env.var path).map .str) with
      | none =>
        rw [hfo] at h2
        dsimp only at h2
        split at h2
        · cases prev with
          | none => cases h2
          | some p => cases h2; exact allSound_prevLatest ((allSound_ref.1 hv).2 p rfl)
        · cases h2
      | some x =>
        rw [hfo] at h2
        refine ih x w ?_ h2
        cases hfo2 : found with
        | some y => rw [hfo2] at hfo; cases hfo; exact hf _ hfo2
        | none =>
          rw [hfo2, Option.none_or] at hfo
          obtain ⟨s, h3, rfl⟩ := Option.map_eq_some_iff.1 hfo
          exact allSound_str.2 (hvar _ _ h3)
    | _ => cases h; exact hv

theorem clean_parseFromString (hl : ∀ f v, env.load f = .ok v → Clean v) (hvar : ∀ p s, env.var p = some s → IsText s)
    (S : Std) (n : Nat) {t : Bytes} {v : Value} (h : parseFromString S env n t = .ok (some v)) : Clean v := by
  unfold parseFromString at h
  cases hp : parse (hocon S n) t with
  | ok vs =>
    rw [hp] at h
    obtain ⟨v', h1, h2⟩ := bind_eq_ok.1 h
    cases h2
    obtain ⟨doc, h3, h4⟩ := bind_eq_ok.1 h1
    have hd := clean_stage0 (fun _ => isText_splitDot) (fun _ f v _ => hl f v) (parse_ok_yields (yields_hocon S n) hp) h3
    exact clean_resolve hl hvar hd _ _ _ hd h4
  | err e =>
    rw [hp] at h
    dsimp only at h
    split at h <;> cases h
  | panic => rw [hp] at h; cases h
  | diverge => rw [hp] at h; cases h

theorem clean_loadFromFile (S : Std) (w : World) (hvar : ∀ p s, w.var p = some s → IsText s) : ∀ n f v,
    loadFromFile S w n f = .ok (some v) → Clean v := by
  intro n
  induction n with
  | zero => intro f v h; cases h
  | succ n ih =>
    intro f v h
    refine clean_parseFromString (fun g x hx => ?_) hvar S (n + 1) h
    obtain ⟨r, h1, h2⟩ := bind_eq_ok.1 hx
    cases r with
    | none => cases h2
    | some y => cases h2; exact ih g _ h1

theorem clean_parseDocument (S : Std) (w : World) (hvar : ∀ p s, w.var p = some s → IsText s) (n : Nat) {t : Bytes}
    {v : Value} (h : parseDocument S w n t = .ok (some v)) : Clean v := by
  refine clean_parseFromString (fun g x hx => ?_) hvar S n h
  obtain ⟨r, h1, h2⟩ := bind_eq_ok.1 hx
  cases r with
  | none => cases h2
  | some y => cases h2; exact clean_loadFromFile S w hvar n g _ h1

end OniComb.Hocon
