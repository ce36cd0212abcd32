import Verif.Model.HoconSteps
import Verif.Lemmas.HoconNested
import Verif.Lemmas.HoconBad
import Verif.Props.UriSteps

/-!
# C149: what HOCON documents take

`Counting.hocon` counts the runs of parsers without parts and of `lazy(..)`, and the elements of literals that are compared. A brace
at the end of a line opens an object, and if the object turns out not to be closed, then the brace is a string, and the lines behind
it, which have been read as properties of the object, are read again, each of them with the same choice.
-/

namespace OniComb.Hocon.Counting
open OniComb OniComb.Hocon OniComb.Hocon.Spec
open OniComb.Uri (Bytes byte bytes fromUtf8 parseUInt mapUnwrap text)
open OniComb.Uri.Counting (C coll att mapped tried txt lit among run_or run_and run_left run_right run_opt run_prim run_seq run_unary
  run_from run_many0 run_many1 run_manyNM run_count run_coll run_named run_att run_mapped run_tried run_txt run_lit run_among)
open OniComb.Counted (prim unary)

variable {A B : Type}

/-! ### The counted parsers are the parsers -/

theorem run_surround {D : Type} (l : C A) (p : C B) (r : C D) : (Counted.surround l p r).run = surround l.run p.run r.run := rfl
theorem run_many0Sep (p : C A) (q : C B) : (Counted.many0Sep p q).run = many0Sep p.run q.run := rfl
theorem run_many1Sep (p : C A) (q : C B) : (Counted.many1Sep p q).run = many1Sep p.run q.run := rfl
theorem run_lazy (f : Unit → C A) : (Counted.lazy f).run = lazy fun u => (f u).run := rfl

theorem space_run : space.run = Hocon.space := by runs [space, Hocon.space]
theorem comment_run : comment.run = Hocon.comment := by runs [comment, Hocon.comment, space_run, lineRest]
theorem soc_run : spaceOrComment.run = Hocon.spaceOrComment := by runs [spaceOrComment, Hocon.spaceOrComment, comment_run, space_run]
theorem spaced_run (p : C A) : (spaced p).run = Hocon.spaced p.run := by runs [spaced, Hocon.spaced, run_surround, soc_run]
theorem number_run : number.run = Hocon.number := by
  runs [number, Hocon.number, spaced_run, numberBare, Hocon.numberBare, integer, Hocon.integer, frac, Hocon.frac, exp, Hocon.exp]
theorem numberValue_run (S : Std) : (numberValue S).run = Hocon.numberValue S := by
  runs [numberValue, Hocon.numberValue, number_run]
theorem spelling_run (s : String) : (spelling s).run = Hocon.spelling s := by runs [spelling, Hocon.spelling]
theorem unitP_run : unitP.run = Hocon.unitP := by
  runs [unitP, Hocon.unitP, unit5, unit3, spelling_run, unitNs, unitUs, unitMs, unitS, unitM, unitH, unitD]
theorem durationValue_run (S : Std) : (durationValue S).run = Hocon.durationValue S := by
  runs [durationValue, Hocon.durationValue, duration, Hocon.duration, numberValue_run, unitP_run]
theorem charString_run : charString.run = Hocon.charString := by
  runs [charString, Hocon.charString, specialChar, Hocon.specialChar]
theorem utf16String_run : utf16String.run = Hocon.utf16String := by
  runs [utf16String, Hocon.utf16String, utf16Char, Hocon.utf16Char]
theorem stringSurround_run : stringSurround.run = Hocon.stringSurround := by
  runs [stringSurround, Hocon.stringSurround, charString_run, utf16String_run]
theorem quote_run (c : Char) : (quote c).run = Hocon.quote c := by runs [quote, Hocon.quote, spaced_run]
theorem string_run : string.run = Hocon.string := by runs [string, Hocon.string, run_surround, stringSurround_run, quote_run]
theorem stringValue_run : stringConfigValue.run = Hocon.stringConfigValue := by
  runs [stringConfigValue, Hocon.stringConfigValue, string_run]
theorem array_run (cv : C Value) : (arrayConfigValue cv).run = Hocon.arrayConfigValue cv.run := by
  runs [arrayConfigValue, Hocon.arrayConfigValue, array, Hocon.array, run_surround, run_many0Sep, spaced_run]
theorem object_run (prop : C (Bytes × Value)) : (objectConfigValue prop).run = Hocon.objectConfigValue prop.run := by
  runs [objectConfigValue, Hocon.objectConfigValue, object, Hocon.object, run_surround, run_many0Sep, spaced_run]
theorem kv_run : kv.run = Hocon.kv := by runs [kv, Hocon.kv]
theorem pathElement_run : pathElement.run = Hocon.pathElement := by runs [pathElement, Hocon.pathElement]
theorem path_run : path.run = Hocon.path := by runs [path, Hocon.path, run_many1Sep, pathElement_run]
theorem key_run : key.run = Hocon.key := by runs [key, Hocon.key, spaced_run, path_run, string_run]
theorem property_run (cv : C Value) (prop : C (Bytes × Value)) : (property cv prop).run = Hocon.property cv.run prop.run := by
  runs [property, Hocon.property, key_run, kv_run, array_run, object_run]
theorem reference_run : referenceConfigValue.run = Hocon.referenceConfigValue := by
  runs [referenceConfigValue, Hocon.referenceConfigValue, reference, Hocon.reference, run_surround, spaced_run, run_many1Sep,
    pathElement_run]
theorem simple_run (S : Std) : (simpleConfigValue S).run = Hocon.simpleConfigValue S := by
  runs [simpleConfigValue, Hocon.simpleConfigValue, spaced_run, durationValue_run, numberValue_run, stringValue_run]
theorem enumeration_run : enumerationConfigValue.run = Hocon.enumerationConfigValue := by
  runs [enumerationConfigValue, Hocon.enumerationConfigValue, stringValue_run, reference_run]
theorem configValue_run (S : Std) (cv : C Value) (prop : C (Bytes × Value)) :
    (configValue S cv prop).run = Hocon.configValue S cv.run prop.run := by
  runs [configValue, Hocon.configValue, spaced_run, array_run, object_run, reference_run, simple_run, enumeration_run]
theorem include_run : includeConfigValue.run = Hocon.includeConfigValue := by
  runs [includeConfigValue, Hocon.includeConfigValue, includeMethod, Hocon.includeMethod, run_surround, path_run]
theorem config_run (cv : C Value) (prop : C (Bytes × Value)) : (config cv prop).run = Hocon.config cv.run prop.run := by
  runs [config, Hocon.config, include_run, object_run, array_run]

theorem grammar_run (S : Std) : ∀ n, (grammar S n).1.run = (Hocon.grammar S n).1 ∧ (grammar S n).2.run = (Hocon.grammar S n).2
  | 0 => ⟨rfl, rfl⟩
  | n + 1 => by
    obtain ⟨h1, h2⟩ := grammar_run S n
    simp only [grammar, Hocon.grammar, configValue_run, property_run, run_lazy, h1, h2, and_self]

/-- The counted parser returns what the parser of the file returns. -/
theorem c149_counts (S : Std) (n : Nat) : (hocon S n).run = Hocon.hocon S n := by
  runs [hocon, Hocon.hocon, soc_run, config_run, (grammar_run S n).1, (grammar_run S n).2]

/-! ### At least so many steps -/

/-- On a text that begins with `r`, wherever, the parser takes at least `m` steps. -/
def AtLeast (m : Nat) (c : C A) (r : Bytes) : Prop := ∀ pre : Bytes, m ≤ c.steps ⟨pre ++ r, pre.length⟩

/-- The parser reads `t`. -/
def Takes (p : Parser UInt8 A) (t : Bytes) (v : A) (rest : Bytes) : Prop :=
  ∀ pre : Bytes, p ⟨pre ++ (t ++ rest), pre.length⟩ = .success v t.length

/-- The parser fails, and an alternative is tried. -/
def Refuses (p : Parser UInt8 A) (r : Bytes) : Prop := ∀ pre : Bytes, ∃ e, p ⟨pre ++ r, pre.length⟩ = .failure e .uncommitted

theorem takes_of {p p' : Parser UInt8 A} [Good p] [Below p p'] {t rest : Bytes} {v : A} (h : Eats p t v rest) : Takes p' t v rest :=
  fun pre => by
    have h' := (at_success (p := p) pre (t ++ rest) v t.length).2 h
    rw [Below.eq (p := p) (q := p') (by rw [h']; simp), h']

theorem refuses_of {p p' : Parser UInt8 A} [Good p] [Below p p'] {r : Bytes} (h : Fail p r .uncommitted) : Refuses p' r := fun pre => by
  obtain ⟨e, h'⟩ := (at_failure (p := p) pre r .uncommitted).2 h
  exact ⟨e, by rw [Below.eq (p := p) (q := p') (by rw [h']; simp), h']⟩

theorem behind (pre t rest : Bytes) :
    State.advanceBy ⟨pre ++ (t ++ rest), pre.length⟩ t.length = ⟨(pre ++ t) ++ rest, (pre ++ t).length⟩ := by
  simp [State.advanceBy]

section
variable {p : C A} {q : C B} {t rest r : Bytes} {v : A} {a b : Nat}

theorem AtLeast.skipLeft (h : AtLeast a p (t ++ rest)) (ht : Takes p.run t v rest) (h' : AtLeast b q rest) :
    AtLeast (a + b) (.skipLeft p q) (t ++ rest) := fun pre => by
  show a + b ≤ p.steps _ + (p.run _).onSuccess _
  rw [ht pre]
  show a + b ≤ p.steps _ + q.steps _
  rw [behind]
  exact Nat.add_le_add (h pre) (h' _)

theorem AtLeast.andThen (h : AtLeast a p (t ++ rest)) (ht : Takes p.run t v rest) (h' : AtLeast b q rest) :
    AtLeast (a + b) (.andThen p q) (t ++ rest) := fun pre => by
  show a + b ≤ p.steps _ + (p.run _).onSuccess _
  rw [ht pre]
  show a + b ≤ p.steps _ + q.steps _
  rw [behind]
  exact Nat.add_le_add (h pre) (h' _)

theorem AtLeast.skipRight (h : AtLeast a p r) : AtLeast a (.skipRight p q) r := fun pre => Nat.le_trans (h pre) (Nat.le_add_right _ _)

theorem AtLeast.or_left {q : C A} (h : AtLeast a p r) : AtLeast a (.or p q) r := fun pre => Nat.le_trans (h pre) (Nat.le_add_right _ _)

theorem AtLeast.or_right {q : C A} (hp : Refuses p.run r) (h : AtLeast a q r) : AtLeast a (.or p q) r := fun pre => by
  obtain ⟨e, he⟩ := hp pre
  show a ≤ p.steps _ + (p.run _).onUncommitted _
  rw [he]
  exact Nat.le_trans (h pre) (Nat.le_add_left _ _)

theorem AtLeast.lazy {f : Unit → C A} (h : AtLeast a (f ()) r) : AtLeast a (.lazy f) r := fun pre => Nat.le_trans (h pre) (Nat.le_add_left _ _)

theorem AtLeast.zero : AtLeast 0 p r := fun _ => Nat.zero_le _

end

theorem soc_one {r : Bytes} : AtLeast 1 spaceOrComment r := fun pre => by
  show 1 ≤ ((1 + _) + _) + _
  omega

/-- Lines that open objects, read as properties. -/
theorem loop_steps {x : Bytes} {P : C (Bytes × Value)} {q : C B} {b : B} (L : Nat)
    (hP : ∀ k ks, (∀ k' ∈ k :: ks, PathText k') → ks.length < L →
      AtLeast (2 ^ ks.length) P (opens (k :: ks) ++ x) ∧ Takes P.run (k ++ [byte '=', byte '{', byte '\n']) (k, .str [byte '{']) (opens ks ++ x))
    (hq : ∀ k ks, (∀ k' ∈ k :: ks, PathText k') → Takes q.run [] b (opens (k :: ks) ++ x)) :
    ∀ (ks : List Bytes), (∀ k ∈ ks, PathText k) → ks.length ≤ L → ∀ (fuel : Nat) (pre : Bytes) (items : List (Bytes × Value)) (len : Nat),
      ks.length ≤ fuel →
      2 ^ ks.length ≤ Counted.repSteps P (some q) .unbounded fuel ⟨⟨pre ++ (opens ks ++ x), pre.length⟩, items, len⟩ + 1 := by
  intro ks
  induction ks with
  | nil => intro _ _ fuel pre items len _; exact Nat.le_add_left _ _
  | cons k ks ih =>
    intro hk hL fuel pre items len hf
    obtain ⟨fuel, rfl⟩ : ∃ f, fuel = f + 1 := ⟨fuel - 1, by simp at hf; omega⟩
    obtain ⟨h1, h2⟩ := hP k ks hk (by simp at hL; omega)
    have e1 := hq k ks hk pre
    rw [List.nil_append] at e1
    have e2 := h2 pre
    have ho : opens (k :: ks) ++ x = (k ++ [byte '=', byte '{', byte '\n']) ++ (opens ks ++ x) := by simp [opens]
    have e3 : P.run ⟨pre ++ (opens (k :: ks) ++ x), pre.length⟩ = .success (k, .str [byte '{']) (k ++ [byte '=', byte '{', byte '\n']).length := by
      rw [ho]; exact e2
    have hb : boundReached .unbounded items.length = false := rfl
    simp only [Counted.repSteps, hb, Bool.false_eq_true, if_false, e1, Res.onSuccess, List.length_nil]
    show 2 ^ (ks.length + 1) ≤ _ + Counted.itemSteps P _ ⟨⟨pre ++ (opens (k :: ks) ++ x), pre.length⟩, items, len + 0⟩ + 1
    simp only [Counted.itemSteps, e3, Res.onSuccess]
    have h3 := h1 pre
    have h4 := ih (fun k' h => hk k' (by simp [h])) (by simp at hL; omega) fuel (pre ++ (k ++ [byte '=', byte '{', byte '\n']))
      (items ++ [(k, .str [byte '{'])]) (len + 0 + (k ++ [byte '=', byte '{', byte '\n']).length) (by simpa using hf)
    rw [ho, behind]
    rw [ho] at h3
    rw [Nat.pow_succ]
    omega

/-- Properties in an object. -/
theorem many_steps {x : Bytes} {P : C (Bytes × Value)} {q : C B} {b : B} (ks : List Bytes) (hk : ∀ k ∈ ks, PathText k)
    (hP : ∀ k ks', (∀ k' ∈ k :: ks', PathText k') → ks'.length < ks.length →
      AtLeast (2 ^ ks'.length) P (opens (k :: ks') ++ x) ∧ Takes P.run (k ++ [byte '=', byte '{', byte '\n']) (k, .str [byte '{']) (opens ks' ++ x))
    (hq : ∀ k ks', (∀ k' ∈ k :: ks', PathText k') → Takes q.run [] b (opens (k :: ks') ++ x)) :
    AtLeast (2 ^ ks.length - 1) (.many0Sep P q) (opens ks ++ x) := by
  cases ks with
  | nil => exact AtLeast.zero
  | cons k ks =>
    intro pre
    obtain ⟨h1, h2⟩ := hP k ks hk (by simp)
    have ho : opens (k :: ks) ++ x = (k ++ [byte '=', byte '{', byte '\n']) ++ (opens ks ++ x) := by simp [opens]
    have h3 := h1 pre
    have hl : ks.length ≤ (opens ks).length := by
      clear hk hP hq h1 h2 ho h3
      induction ks with
      | nil => simp
      | cons k ks ih => simp only [opens, List.flatMap_cons, List.length_append, List.length_cons, List.length_nil] at *; omega
    show _ ≤ P.steps _ + (P.run _).onSuccess _
    rw [ho] at h3 ⊢
    rw [h2 pre]
    show _ ≤ P.steps _ + Counted.repSteps P (some q) .unbounded (repFuel .unbounded _) ⟨State.advanceBy _ _, _, _⟩
    rw [behind]
    have h4 := loop_steps (ks.length + 1) (fun k' ks' h hl => hP k' ks' h (by simpa using hl)) hq ks (fun k' h => hk k' (by simp [h]))
      (by omega) (repFuel .unbounded ⟨pre ++ ((k ++ [byte '=', byte '{', byte '\n']) ++ (opens ks ++ x)), pre.length⟩)
      (pre ++ (k ++ [byte '=', byte '{', byte '\n'])) [(k, .str [byte '{'])] (k ++ [byte '=', byte '{', byte '\n']).length
      (by simp only [repFuel, List.length_append]; omega)
    rw [List.length_cons, Nat.pow_succ]
    omega

/-! ### Values and properties -/

theorem soc_takes {r : Bytes} (h : Quiet r) : Takes spaceOrComment.run [] () r := by
  rw [soc_run]
  exact takes_of (p := Hocon.spaceOrComment) (eats_blanks blanks_nil h)

theorem comma_takes {x : Bytes} (hx : Stuck x) {k : Bytes} {ks : List Bytes} (hk : ∀ k' ∈ k :: ks, PathText k') :
    Takes (Counted.opt (spaced (lit ','))).run [] none (opens (k :: ks) ++ x) := by
  rw [run_opt, spaced_run, run_lit]
  refine takes_of (p := opt (Hocon.spaced (elm (byte ',')))) (eats_opt.2 (.inr ⟨rfl, rfl, .uncommitted,
    fail_spaced' (opens_quiet hk hx) (fail_elm.2 ⟨rfl, ?_⟩)⟩))
  intro r' h
  obtain ⟨b, x, rfl, hb⟩ := pathText_head (hk k (by simp))
  simp only [opens, List.flatMap_cons, List.cons_append, List.cons.injEq] at h
  rw [h.1] at hb
  exact absurd hb (by decide)

/-- A property with a brace. -/
theorem property_steps (S : Std) {x : Bytes} {n a : Nat} {k : Bytes} {ks : List Bytes} (hk : ∀ k' ∈ k :: ks, PathText k')
    (h : AtLeast a (grammar S n).1 ([byte '{', byte '\n'] ++ (opens ks ++ x))) : AtLeast a (grammar S (n + 1)).2 (opens (k :: ks) ++ x) := by
  have ho : opens (k :: ks) ++ x = k ++ ([byte '='] ++ ([byte '{', byte '\n'] ++ (opens ks ++ x))) := by simp [opens]
  rw [ho]
  have h1 : Takes key.run k k ([byte '='] ++ ([byte '{', byte '\n'] ++ (opens ks ++ x))) := by
    rw [key_run]
    have hkey := eats_key (b1 := []) (b2 := []) (rest := [byte '='] ++ ([byte '{', byte '\n'] ++ (opens ks ++ x))) (hk k (by simp)) gap_nil
      blanks_nil (noHead_cons.2 (by decide)) (noHead_cons.2 (by unfold PathByte; decide))
    rw [List.nil_append, List.append_nil] at hkey
    exact takes_of hkey
  have h2 : Takes kv.run [byte '='] () ([byte '{', byte '\n'] ++ (opens ks ++ x)) := by
    rw [kv_run]
    refine takes_of (p := Hocon.kv) ?_
    unfold Hocon.kv
    exact eats_discard.2 ⟨byte '=', (one_of _).eats.2 ⟨rfl, by decide⟩⟩
  have h3 : AtLeast (0 + a) (.skipLeft kv (.lazy fun _ => (grammar S n).1)) ([byte '='] ++ ([byte '{', byte '\n'] ++ (opens ks ++ x))) :=
    AtLeast.zero.skipLeft h2 h.lazy
  have h4 : AtLeast (0 + a) (.or (.or (att (.skipLeft kv (.lazy fun _ => (grammar S n).1)))
      (att (objectConfigValue (.lazy fun _ => (grammar S n).2)))) (arrayConfigValue (.lazy fun _ => (grammar S n).1)))
      ([byte '='] ++ ([byte '{', byte '\n'] ++ (opens ks ++ x))) := AtLeast.or_left (AtLeast.or_left h3)
  have h5 := AtLeast.zero.andThen h1 h4
  rw [Nat.zero_add, Nat.zero_add] at h5
  exact h5

theorem property_takes (S : Std) {x : Bytes} (hx : Stuck x) {n : Nat} {k : Bytes} {ks : List Bytes} (hn : 2 * ks.length + 3 ≤ n) (hk : ∀ k' ∈ k :: ks, PathText k') :
    Takes (grammar S n).2.run (k ++ [byte '=', byte '{', byte '\n']) (k, .str [byte '{']) (opens ks ++ x) := by
  rw [(grammar_run S n).2]
  exact takes_of (eats_openProp S hx hn hk)

/-- A brace that is not closed. -/
theorem value_steps (S : Std) {x : Bytes} (hx : Stuck x) : ∀ (n : Nat) (ks : List Bytes), 2 * ks.length + 2 ≤ n → (∀ k ∈ ks, PathText k) →
    AtLeast (2 ^ ks.length) (grammar S n).1 ([byte '{', byte '\n'] ++ (opens ks ++ x)) := by
  intro n
  induction n using Nat.strongRecOn with
  | _ n ih =>
    intro ks hn hk
    obtain ⟨m, rfl⟩ : ∃ m, n = m + 2 := ⟨n - 2, by omega⟩
    have hq : Quiet ([byte '{', byte '\n'] ++ (opens ks ++ x)) := noHead_cons.2 (by decide)
    have hm : AtLeast (2 ^ ks.length - 1) (.many0Sep (.lazy fun _ => (grammar S (m + 1)).2) (.opt (spaced (lit ',')))) (opens ks ++ x) :=
      many_steps ks hk (fun k ks' hk' hl => ⟨(property_steps S hk' (ih m (by omega) ks' (by omega)
        fun k' h => hk' k' (by simp [h]))).lazy, property_takes (n := m + 1) S hx (by omega) hk'⟩) fun k ks' hk' => comma_takes hx hk'
    have hb : Takes (spaced (lit '{')).run [byte '{', byte '\n'] (byte '{') (opens ks ++ x) := by
      rw [spaced_run, run_lit]
      exact takes_of (p := Hocon.spaced (elm (byte '{')))
        (eats_spaced' (t := [byte '{']) (b2 := [byte '\n']) gap_line (noHead_cons.2 (by decide)) (opens_quiet hk hx) (eats_elm.2 ⟨rfl, rfl⟩))
    have ho : AtLeast (0 + (2 ^ ks.length - 1)) (objectConfigValue (.lazy fun _ => (grammar S (m + 1)).2))
        ([byte '{', byte '\n'] ++ (opens ks ++ x)) := AtLeast.zero.skipLeft hb hm.skipRight
    have ha : Refuses (att (arrayConfigValue (.lazy fun _ => (grammar S (m + 1)).1))).run ([byte '{', byte '\n'] ++ (opens ks ++ x)) := by
      rw [run_att, array_run, run_lazy, (grammar_run S (m + 1)).1]
      exact refuses_of (p := attempt (Hocon.arrayConfigValue (OniComb.lazy fun _ => (softGrammar S (m + 1)).1)))
        (fail_attempt_of (fail_array hq (noHead_cons.2 (by decide))))
    have hall : AtLeast (0 + (2 ^ ks.length - 1)) (.or (.or (.or (.or (att (arrayConfigValue (.lazy fun _ => (grammar S (m + 1)).1)))
        (att (objectConfigValue (.lazy fun _ => (grammar S (m + 1)).2)))) (att referenceConfigValue)) (att (simpleConfigValue S)))
        enumerationConfigValue) ([byte '{', byte '\n'] ++ (opens ks ++ x)) :=
      AtLeast.or_left (AtLeast.or_left (AtLeast.or_left (AtLeast.or_right ha ho)))
    have := soc_one.skipLeft (t := []) (soc_takes hq) (hall.skipRight (q := spaceOrComment))
    have hpos : 1 ≤ 2 ^ ks.length := Nat.one_le_two_pow
    rw [show 2 ^ ks.length = 1 + (0 + (2 ^ ks.length - 1)) by omega]
    exact this

/-! ### Documents -/

theorem opens_length {ks : List Bytes} (hk : ∀ k ∈ ks, PathText k) : 4 * ks.length ≤ (opens ks).length := by
  induction ks with
  | nil => simp
  | cons k ks ih =>
    have h := ih fun k' h => hk k' (by simp [h])
    obtain ⟨b, x, rfl, -⟩ := pathText_head (hk k (by simp))
    simp only [opens, List.flatMap_cons, List.length_append, List.length_cons, List.length_nil] at *
    omega

theorem opens_doc (S : Std) {n : Nat} {ks : List Bytes} (hne : ks ≠ []) (hk : ∀ k ∈ ks, PathText k) (hn : 2 * ks.length + 1 ≤ n) :
    parse (Hocon.hocon S n) (opens ks) = .ok [.obj (configFold (ks.map fun k => (k, .str [byte '{'])))] := by
  obtain ⟨m, rfl⟩ : ∃ m, n = m + 1 := ⟨n - 1, by omega⟩
  have hmany : ∀ ks : List Bytes, (∀ k ∈ ks, PathText k) → 2 * ks.length + 1 ≤ m + 1 →
      Many (softGrammar S (m + 1)).2 (opens ks) (ks.map fun k => (k, .str [byte '{'])) [] := by
    intro ks
    induction ks with
    | nil => intro _ _; exact .nil _
    | cons k ks ih =>
      intro hk hn
      rw [List.length_cons] at hn
      have h1 := eats_openProp S (x := []) .nil (n := m + 1) (ks := ks) (by omega) hk
      have h2 := Many.cons (p := (softGrammar S (m + 1)).2) (t := k ++ [byte '=', byte '{', byte '\n']) (t' := opens ks) (rest := [])
        h1 (ih (fun k' h => hk k' (by simp [h])) (by omega))
      simpa [opens] using h2
  have h1 : parse (softHocon S (m + 1)) (opens ks) = .ok [.obj (configFold (ks.map fun k => (k, .str [byte '{'])))] := by
    unfold softHocon
    refine parse_end_ok.2 ?_
    have h2 : Eats (many1 (softGrammar S (m + 1)).2) (opens ks) (ks.map fun k => (k, .str [byte '{'])) [] :=
      eats_many1.2 ⟨by simpa using hne, hmany ks hk hn, .uncommitted, fail_property_end⟩
    have h3 := Eats.skipLeft (p := Hocon.spaceOrComment) (t1 := []) (t2 := opens ks) (rest := [])
      (q := Hocon.config (softGrammar S (m + 1)).1 (softGrammar S (m + 1)).2)
      (eats_blanks blanks_nil (opens_quiet hk .nil))
      (.or_left (.or_left (h2.map (fun ps => [Value.obj (configFold ps)])).attempt))
    simpa using h3
  have h4 : Below (softHocon S (m + 1)) (Hocon.hocon S (m + 1)) := inferInstance
  unfold parse at h1 ⊢
  rw [h4.eq]
  · exact h1
  · intro h5
    rw [h5] at h1
    cases h1

theorem opens_steps (S : Std) {x : Bytes} (hx : Stuck x) {n : Nat} {k : Bytes} {ks : List Bytes} (hk : ∀ k' ∈ k :: ks, PathText k')
    (hn : 2 * ks.length + 3 ≤ n) : 2 ^ ks.length ≤ (hocon S n).steps ⟨opens (k :: ks) ++ x, 0⟩ := by
  obtain ⟨m, rfl⟩ : ∃ m, n = m + 1 := ⟨n - 1, by omega⟩
  have h1 := property_steps S hk (value_steps S hx m ks (by omega) fun k' h => hk k' (by simp [h]))
  have h2 : AtLeast (2 ^ ks.length) (.many1 (grammar S (m + 1)).2) (opens (k :: ks) ++ x) := fun pre =>
    Nat.le_trans (h1 pre) (Nat.le_add_right _ _)
  have h3 : AtLeast (2 ^ ks.length) (config (grammar S (m + 1)).1 (grammar S (m + 1)).2) (opens (k :: ks) ++ x) :=
    AtLeast.or_left (AtLeast.or_left h2)
  have h4 := ((AtLeast.zero.skipLeft (t := []) (soc_takes (opens_quiet hk hx)) h3).skipRight (q := prim end_)) []
  rw [Nat.zero_add, List.nil_append, List.nil_append] at h4
  exact h4

/-- **C149, violated**: lines `key={` without any closing brace are a document: every brace is a string. Reading it takes twice as
many steps for every further line. -/
theorem c149_lines_violated (S : Std) (k : Bytes) (ks : List Bytes) (hk : ∀ k' ∈ k :: ks, PathText k') (n : Nat)
    (hn : (opens (k :: ks)).length < n) :
    (∃ es, parse (Hocon.hocon S n) (opens (k :: ks)) = .ok [.obj es] ∧
      ((k :: ks).Nodup → es = (k :: ks).map fun k' => (k', .str [byte '{']))) ∧
    2 ^ ks.length ≤ (hocon S n).steps ⟨opens (k :: ks), 0⟩ := by
  have hl := opens_length hk
  rw [List.length_cons] at hl
  refine ⟨⟨_, opens_doc S (by simp) hk (by rw [List.length_cons]; omega), fun hd => configFold_distinct ?_⟩, by
    simpa using opens_steps S (x := []) .nil (n := n) hk (by omega)⟩
  rw [List.map_map]
  simpa [Function.comp_def] using hd

/-- What is left behind lines that open objects makes a document with an error. -/
theorem opens_err (S : Std) {x : Bytes} (hx : Stuck x) (hne : x ≠ []) {n : Nat} {ks : List Bytes} (hk0 : ks ≠ [])
    (hk : ∀ k ∈ ks, PathText k) (hn : 2 * ks.length + 1 ≤ n) : ∃ e, parse (Hocon.hocon S n) (opens ks ++ x) = .err e := by
  obtain ⟨m, rfl⟩ : ∃ m, n = m + 1 := ⟨n - 1, by omega⟩
  have hmany : ∀ ks : List Bytes, (∀ k ∈ ks, PathText k) → 2 * ks.length + 1 ≤ m + 1 →
      Many (softGrammar S (m + 1)).2 (opens ks) (ks.map fun k => (k, .str [byte '{'])) x := by
    intro ks
    induction ks with
    | nil => intro _ _; exact .nil _
    | cons k ks ih =>
      intro hk hn
      rw [List.length_cons] at hn
      have h1 := eats_openProp S hx (n := m + 1) (ks := ks) (by omega) hk
      have h2 := Many.cons (p := (softGrammar S (m + 1)).2) (t := k ++ [byte '=', byte '{', byte '\n']) (t' := opens ks) (rest := x)
        h1 (ih (fun k' h => hk k' (by simp [h])) (by omega))
      simpa [opens] using h2
  have h2 : Eats (many1 (softGrammar S (m + 1)).2) (opens ks) (ks.map fun k => (k, .str [byte '{'])) x :=
    eats_many1.2 ⟨by simpa using hk0, hmany ks hk hn, .uncommitted,
      fail_property_stuck (cv := OniComb.lazy fun _ => (softGrammar S m).1) (prop := OniComb.lazy fun _ => (softGrammar S m).2) hx⟩
  have h3 := Eats.skipLeft (p := Hocon.spaceOrComment) (t1 := []) (t2 := opens ks) (rest := x)
    (q := Hocon.config (softGrammar S (m + 1)).1 (softGrammar S (m + 1)).2)
    (eats_blanks blanks_nil (opens_quiet hk hx))
    (.or_left (.or_left (h2.map (fun ps => [Value.obj (configFold ps)])).attempt))
  obtain ⟨e, he⟩ := parse_end_err h3 hne
  refine ⟨e, parse_soft ?_ (by simp)⟩
  unfold softHocon
  rw [← he]
  simp

/-- **C149, violated**: nested objects, each opened at the end of a line. If no property begins behind the innermost brace, then the
document is refused, whether or not the objects are closed behind that place, and refusing it takes twice as many steps for every
further object around that place. -/
theorem c149_refused_violated (S : Std) (k : Bytes) (ks : List Bytes) (hk : ∀ k' ∈ k :: ks, PathText k') (x : Bytes) (hx : Stuck x)
    (hne : x ≠ []) (n : Nat) (hn : (opens (k :: ks)).length < n) :
    (∃ e, parse (Hocon.hocon S n) (opens (k :: ks) ++ x) = .err e) ∧ 2 ^ ks.length ≤ (hocon S n).steps ⟨opens (k :: ks) ++ x, 0⟩ := by
  have hl := opens_length hk
  rw [List.length_cons] at hl
  exact ⟨opens_err S hx hne (by simp) hk (by rw [List.length_cons]; omega), opens_steps S hx hk (by omega)⟩

/-- `a` is a key. -/
theorem path_a : PathText [byte 'a'] := ⟨[[byte 'a']], by simp, by simp [Segment]; decide, rfl⟩

/-- **C149, violated**: documents of four times `k + 1` bytes that are accepted take more than `2 ^ k` steps. -/
theorem c149_exponential_violated (S : Std) (k : Nat) : ∃ (t : Bytes) (es : Entries), t.length = 4 * (k + 1) ∧
    ∀ n, t.length < n → parse (Hocon.hocon S n) t = .ok [.obj es] ∧ 2 ^ k ≤ (hocon S n).steps ⟨t, 0⟩ := by
  have hk : ∀ k' ∈ [byte 'a'] :: List.replicate k [byte 'a'], PathText k' := by
    intro k' h
    rw [← List.replicate_succ] at h
    rw [List.eq_of_mem_replicate h]
    exact path_a
  have hl : (opens ([byte 'a'] :: List.replicate k [byte 'a'])).length = 4 * (k + 1) := by
    rw [← List.replicate_succ]
    generalize k + 1 = j
    induction j with
    | zero => simp [opens]
    | succ j ih =>
      have : opens (List.replicate (j + 1) [byte 'a']) = [byte 'a', byte '=', byte '{', byte '\n'] ++ opens (List.replicate j [byte 'a']) := by
        simp [opens, List.replicate_succ]
      rw [this, List.length_append, ih]
      simp
      omega
  refine ⟨_, _, hl, fun n hn => ⟨opens_doc S (by simp) hk ?_, ?_⟩⟩
  · rw [List.length_cons, List.length_replicate]; omega
  · have := opens_steps S (x := []) .nil (n := n) hk (by rw [List.length_replicate]; omega)
    rwa [List.length_replicate, List.append_nil] at this

/-- A service that is configured with three sections and no closing brace. -/
example (S : Std) : parse (Hocon.hocon S 40) (opens [bytes "server", bytes "pool", bytes "retry"]) =
    .ok [.obj [(bytes "server", .str [byte '{']), (bytes "pool", .str [byte '{']), (bytes "retry", .str [byte '{'])]] ∧
    4 ≤ (hocon S 40).steps ⟨opens [bytes "server", bytes "pool", bytes "retry"], 0⟩ := by
  have hp : ∀ w ∈ [bytes "server", bytes "pool", bytes "retry"], PathText w := by
    intro w hw
    refine ⟨[w], by simp, ?_, rfl⟩
    simp only [List.mem_cons, List.not_mem_nil, or_false] at hw
    rcases hw with rfl | rfl | rfl <;> simp only [List.mem_cons, List.not_mem_nil, or_false, forall_eq, Segment] <;> decide
  obtain ⟨⟨es, h1, h2⟩, h3⟩ := c149_lines_violated S _ _ hp 40 (by decide)
  rw [h1, h2 (by decide)]
  exact ⟨rfl, h3⟩

theorem word_path {w : Bytes} (hw : w ≠ [] ∧ ∀ b ∈ w, Element.isAlpha b = true) : PathText w :=
  ⟨[w], by simp, by intro s hs; rw [List.mem_singleton.1 hs]; exact ⟨hw.1, fun b hb => .inl (hw.2 b hb)⟩, rfl⟩

/-- Three nested objects, all of them closed, and in the innermost one a list is appended to, as HOCON has it. -/
example (S : Std) : (∃ e, parse (Hocon.hocon S 60) (opens [bytes "server", bytes "pool", bytes "retry"] ++
      (bytes "codes" ++ (List.replicate 1 (byte ' ') ++ bytes "+= 503\n}\n}\n}\n"))) = .err e) ∧
    2 ^ 2 ≤ (hocon S 60).steps ⟨opens [bytes "server", bytes "pool", bytes "retry"] ++
      (bytes "codes" ++ (List.replicate 1 (byte ' ') ++ bytes "+= 503\n}\n}\n}\n")), 0⟩ := by
  have hk : ∀ w ∈ [bytes "server", bytes "pool", bytes "retry"], PathText w := by
    intro w h
    simp only [List.mem_cons, List.not_mem_nil, or_false] at h
    rcases h with rfl | rfl | rfl <;> exact word_path (by decide)
  refine c149_refused_violated S _ _ hk _ (.word 1 (word_path (by decide)) ?_) (by simp) 60 (by decide)
  intro b y' h
  cases h
  exact ⟨by decide, by unfold Segment; decide⟩

/-- A file included in the innermost of two objects. -/
example (S : Std) : ∃ e, parse (Hocon.hocon S 60) (opens [bytes "server", bytes "pool"] ++
    (bytes "include" ++ (List.replicate 1 (byte ' ') ++ bytes "\"common\"\n}\n}\n"))) = .err e := by
  have hk : ∀ w ∈ [bytes "server", bytes "pool"], PathText w := by
    intro w h
    simp only [List.mem_cons, List.not_mem_nil, or_false] at h
    rcases h with rfl | rfl <;> exact word_path (by decide)
  refine (c149_refused_violated S _ _ hk _ (.word 1 (word_path (by decide)) ?_) (by simp) 60 (by decide)).1
  intro b y' h
  cases h
  exact ⟨by decide, by unfold Segment; decide⟩

end OniComb.Hocon.Counting
