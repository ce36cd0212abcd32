import Verif.Spec.HoconTicks
import Verif.Props.HoconSteps
import Verif.Props.HoconBound
import Verif.Props.UriTicks

/-!
# C149, by a clock

The number of steps that `Model/HoconSteps` computes is what a clock shows that is advanced by the parsers without parts
while the combinators of `Model/CacheGrammar` run.
-/

namespace OniComb.Hocon.Ticking
open OniComb OniComb.Hocon OniComb.Hocon.Spec OniComb.Stateful
open OniComb.Uri (Bytes byte bytes fromUtf8 parseUInt mapUnwrap text)
open OniComb.Uri.Ticking (C clocked_coll clocked_att clocked_mapped clocked_tried clocked_txt clocked_lit clocked_among clocked_unwrap
  coll att mapped tried txt lit among)
open OniComb.Json.Ticking (word clocked_skipLeft clocked_surround clocked_repeatSep ClockedSep)
open OniComb.Peg

section
variable {A B : Type} {m : C A} {c : Uri.Counting.C A} {m' : C B} {c' : Uri.Counting.C B}

theorem clocked_later (h : Clocked m c) : Clocked (later m) (.lazy fun _ => c) := fun s σ r σ' => by
  refine (clocked_bind (clocked_prim unit) _ s σ r σ').trans ((h _ _ _ _).trans ?_)
  rw [Nat.add_assoc]
  rfl

theorem clocked_word (w : Bytes) : Clocked (word w) (.seq w) := clocked_seq w
theorem clocked_many0 (h : Clocked m c) : Clocked (many0 m) (.many0 c) := clocked_repeat h 0
theorem clocked_many1 (h : Clocked m c) : Clocked (many1 m) (.many1 c) := clocked_repeat h 1
theorem clocked_count (h : Clocked m c) (n : Nat) : Clocked (count m n) (.count c n) := clocked_repeatSep h .none _
theorem clocked_many0Sep (h : Clocked m c) (h' : Clocked m' c') : Clocked (many0Sep m m') (.many0Sep c c') :=
  clocked_repeatSep h (.some h') _
theorem clocked_many1Sep (h : Clocked m c) (h' : Clocked m' c') : Clocked (many1Sep m m') (.many1Sep c c') :=
  clocked_repeatSep h (.some h') _
theorem clocked_disc (h : Clocked m c) : Clocked (Stateful.unary discard m) (.unary discard c) := clocked_unary h _ fun _ _ => rfl

end

/-- Combinator by combinator. -/
macro "clock" : tactic => `(tactic| repeat' (first
  | assumption | exact clocked_lit _ | exact clocked_among _ | exact clocked_prim _ | exact clocked_word _
  | apply clocked_opt | apply clocked_or | apply Peg.clocked_andThen | apply clocked_skipLeft | apply Peg.clocked_skipRight | apply clocked_surround
  | apply clocked_many0 | apply clocked_many1 | apply clocked_count | apply clocked_many0Sep | apply clocked_many1Sep
  | apply clocked_att | apply clocked_mapped | apply clocked_tried | apply clocked_txt | apply clocked_coll | apply clocked_disc
  | apply clocked_unwrap))

theorem clocked_lineRest : Clocked lineRest Counting.lineRest := fun _ _ _ _ => Iff.rfl

theorem clocked_space : Clocked space Counting.space := by unfold space Counting.space; clock

theorem clocked_soc : Clocked spaceOrComment Counting.spaceOrComment := by
  have := clocked_space
  have := clocked_lineRest
  unfold spaceOrComment Counting.spaceOrComment comment Counting.comment
  clock

theorem clocked_spaced {A : Type} {m : C A} {c : Uri.Counting.C A} (h : Clocked m c) : Clocked (spaced m) (Counting.spaced c) := by
  have := clocked_soc
  unfold spaced Counting.spaced
  clock

theorem clocked_numberValue (S : Std) : Clocked (numberValue S) (Counting.numberValue S) := by
  unfold numberValue Counting.numberValue number Counting.number
  refine clocked_unwrap (clocked_mapped (clocked_spaced ?_) _) _
  unfold numberBare Counting.numberBare integer Counting.integer frac Counting.frac exp Counting.exp
  clock

theorem clocked_unit5 (a b c d e : String) (u : TimeUnit) : Clocked (unit5 a b c d e u) (Counting.unit5 a b c d e u) := by
  unfold unit5 Counting.unit5 spelling Counting.spelling
  clock

theorem clocked_unit3 (a b c : String) (u : TimeUnit) : Clocked (unit3 a b c u) (Counting.unit3 a b c u) := by
  unfold unit3 Counting.unit3 spelling Counting.spelling
  clock

theorem clocked_unitP : Clocked unitP Counting.unitP :=
  clocked_or (clocked_or (clocked_or (clocked_or (clocked_or (clocked_or (clocked_att (clocked_unit5 _ _ _ _ _ _))
    (clocked_att (clocked_unit5 _ _ _ _ _ _))) (clocked_att (clocked_unit5 _ _ _ _ _ _))) (clocked_att (clocked_unit3 _ _ _ _)))
    (clocked_att (clocked_unit3 _ _ _ _))) (clocked_att (clocked_unit3 _ _ _ _))) (clocked_unit3 _ _ _ _)

theorem clocked_durationValue (S : Std) : Clocked (durationValue S) (Counting.durationValue S) :=
  clocked_mapped (Peg.clocked_andThen (clocked_numberValue S) clocked_unitP) _

theorem clocked_stringSurround : Clocked stringSurround Counting.stringSurround := by
  unfold stringSurround Counting.stringSurround charString Counting.charString utf16String Counting.utf16String utf16Char
    Counting.utf16Char specialChar Counting.specialChar
  clock

theorem clocked_quote (c : Char) : Clocked (quote c) (Counting.quote c) := clocked_spaced (clocked_lit _)

theorem clocked_string : Clocked string Counting.string := by
  have := clocked_stringSurround
  have h1 := clocked_quote '"'
  have h2 := clocked_quote '\''
  unfold string Counting.string
  clock

theorem clocked_kv : Clocked kv Counting.kv := by unfold kv Counting.kv; clock

theorem clocked_pathElement : Clocked pathElement Counting.pathElement := by unfold pathElement Counting.pathElement; clock

theorem clocked_path : Clocked path Counting.path := by
  have := clocked_pathElement
  unfold path Counting.path
  clock

theorem clocked_key : Clocked key Counting.key := clocked_spaced (clocked_or (clocked_att clocked_path) clocked_string)

theorem clocked_referenceValue : Clocked referenceConfigValue Counting.referenceConfigValue := by
  have := clocked_pathElement
  have h1 := clocked_spaced (clocked_word (bytes "${"))
  have h2 := clocked_spaced (clocked_word (bytes "}"))
  unfold referenceConfigValue Counting.referenceConfigValue reference Counting.reference
  clock

theorem clocked_stringValue : Clocked stringConfigValue Counting.stringConfigValue := clocked_mapped clocked_string _

theorem clocked_enumeration : Clocked enumerationConfigValue Counting.enumerationConfigValue :=
  clocked_mapped (clocked_many1 (clocked_or (clocked_att clocked_stringValue) clocked_referenceValue)) _

theorem clocked_simple (S : Std) : Clocked (simpleConfigValue S) (Counting.simpleConfigValue S) := by
  unfold simpleConfigValue Counting.simpleConfigValue
  have := clocked_durationValue S
  have := clocked_numberValue S
  have := clocked_stringValue
  refine clocked_spaced ?_
  clock

section
variable {cv : C Value} {cv' : Uri.Counting.C Value} {prop : C (Bytes × Value)} {prop' : Uri.Counting.C (Bytes × Value)}

theorem clocked_array (h : Clocked cv cv') : Clocked (arrayConfigValue cv) (Counting.arrayConfigValue cv') :=
  clocked_mapped (clocked_surround (clocked_spaced (clocked_lit _)) (clocked_many0Sep h (clocked_spaced (clocked_lit _)))
    (clocked_spaced (clocked_lit _))) _

theorem clocked_object (h : Clocked prop prop') : Clocked (objectConfigValue prop) (Counting.objectConfigValue prop') :=
  clocked_mapped (clocked_mapped (clocked_surround (clocked_spaced (clocked_lit _))
    (clocked_many0Sep h (clocked_opt (clocked_spaced (clocked_lit _)))) (clocked_spaced (clocked_lit _))) _) _

theorem clocked_property (h : Clocked cv cv') (h' : Clocked prop prop') : Clocked (property cv prop) (Counting.property cv' prop') :=
  Peg.clocked_andThen clocked_key (clocked_or (clocked_or (clocked_att (clocked_skipLeft clocked_kv h)) (clocked_att (clocked_object h')))
    (clocked_array h))

theorem clocked_configValue (S : Std) (h : Clocked cv cv') (h' : Clocked prop prop') :
    Clocked (configValue S cv prop) (Counting.configValue S cv' prop') :=
  clocked_spaced (clocked_or (clocked_or (clocked_or (clocked_or (clocked_att (clocked_array h)) (clocked_att (clocked_object h')))
    (clocked_att clocked_referenceValue)) (clocked_att (clocked_simple S))) clocked_enumeration)

theorem clocked_include : Clocked includeConfigValue Counting.includeConfigValue := by
  have := clocked_path
  unfold includeConfigValue Counting.includeConfigValue includeMethod Counting.includeMethod
  clock

theorem clocked_config (h : Clocked cv cv') (h' : Clocked prop prop') : Clocked (config cv prop) (Counting.config cv' prop') :=
  clocked_or (clocked_or (clocked_att (clocked_mapped (clocked_many1 h') _)) (clocked_att (clocked_many1 clocked_include)))
    (clocked_many0 (clocked_or (clocked_att (clocked_object h')) (clocked_array h)))

end

theorem clocked_grammar (S : Std) : ∀ n, Clocked (grammar S n).1 (Counting.grammar S n).1 ∧ Clocked (grammar S n).2 (Counting.grammar S n).2
  | 0 => ⟨clocked_prim _, clocked_prim _⟩
  | n + 1 =>
    have h := clocked_grammar S n
    ⟨clocked_configValue S (clocked_later h.1) (clocked_later h.2), clocked_property (clocked_later h.1) (clocked_later h.2)⟩

theorem clocked_hocon (S : Std) (n : Nat) : Clocked (hocon S n) (Counting.hocon S n) :=
  Peg.clocked_skipRight (clocked_skipLeft clocked_soc (clocked_config (clocked_grammar S n).1 (clocked_grammar S n).2)) (clocked_prim _)

/-- **C149, violated**: documents of four times `k + 1` bytes are accepted, and the clock goes on by more than `2 ^ k`. -/
theorem c149_clock_violated (S : Std) (k : Nat) : ∃ (t : Bytes) (es : Entries), t.length = 4 * (k + 1) ∧
    ∀ n σ, t.length < n → ∃ m σ', 2 ^ k ≤ σ' - σ ∧ ∀ r σ1, hocon S n ⟨t, 0⟩ σ r σ1 ↔ r = .success [.obj es] m ∧ σ1 = σ' := by
  obtain ⟨t, es, h1, h2⟩ := Counting.c149_exponential_violated S k
  refine ⟨t, es, h1, fun n σ hn => ?_⟩
  obtain ⟨h3, h4⟩ := h2 n hn
  have h5 : ∃ m, Hocon.hocon S n ⟨t, 0⟩ = .success [.obj es] m := by
    unfold parse at h3
    cases h : Hocon.hocon S n ⟨t, 0⟩ with
    | success v m => rw [h] at h3; cases h3; exact ⟨m, rfl⟩
    | _ => rw [h] at h3; cases h3
  obtain ⟨m, h5⟩ := h5
  refine ⟨m, σ + (Counting.hocon S n).steps ⟨t, 0⟩, by omega, fun r σ1 => ?_⟩
  rw [← h5, ← Counting.c149_counts]
  exact clocked_hocon S n _ _ _ _

/-- **C149, violated**: until a document with `k` further objects around an unreadable line is refused, the clock goes on by `2 ^ k` or
more. -/
theorem c149_clock_refused_violated (S : Std) (k : Bytes) (ks : List Bytes) (hk : ∀ k' ∈ k :: ks, PathText k') (x : Bytes) (hx : Stuck x)
    (hne : x ≠ []) (n : Nat) (hn : (opens (k :: ks)).length < n) (σ : Nat) :
    ∃ e c σ', 2 ^ ks.length ≤ σ' - σ ∧ ∀ r σ1, hocon S n ⟨opens (k :: ks) ++ x, 0⟩ σ r σ1 ↔ r = .failure e c ∧ σ1 = σ' := by
  obtain ⟨⟨e, h3⟩, h4⟩ := Counting.c149_refused_violated S k ks hk x hx hne n hn
  have h5 : ∃ e c, Hocon.hocon S n ⟨opens (k :: ks) ++ x, 0⟩ = .failure e c := by
    unfold parse at h3
    cases h : Hocon.hocon S n ⟨opens (k :: ks) ++ x, 0⟩ with
    | failure e c => exact ⟨e, c, rfl⟩
    | _ => rw [h] at h3; cases h3
  obtain ⟨e, c, h5⟩ := h5
  refine ⟨e, c, σ + (Counting.hocon S n).steps ⟨opens (k :: ks) ++ x, 0⟩, by omega, fun r σ1 => ?_⟩
  rw [← h5, ← Counting.c149_counts]
  exact clocked_hocon S n _ _ _ _

/-- **C149, partly**: when a document of definitions on lines of their own, whose objects are closed on lines of their own, has been
accepted, the clock has gone on by no more than a multiple of the fourth power of its length. -/
theorem c149_clock_document_partial : ∃ K, ∀ (S : Std) (ds : List (Bytes × Spec.Lit)), ds ≠ [] → Spec.DocOk S.parseDecimal ds →
    ∀ n σ, (Spec.docText ds).length < n → ∃ es m σ', σ' ≤ σ + K * ((Spec.docText ds).length + 1) ^ 4 ∧
      ∀ r σ1, hocon S n ⟨Spec.docText ds, 0⟩ σ r σ1 ↔ r = .success [.obj es] m ∧ σ1 = σ' := by
  obtain ⟨K, hK⟩ := Counting.c149_document_partial
  refine ⟨K, fun S ds hne hd n σ hn => ?_⟩
  obtain ⟨⟨es, h3⟩, h4⟩ := hK S ds hne hd n hn
  have h5 : ∃ m, Hocon.hocon S n ⟨Spec.docText ds, 0⟩ = .success [.obj es] m := by
    unfold parse at h3
    cases h : Hocon.hocon S n ⟨Spec.docText ds, 0⟩ with
    | success v m => rw [h] at h3; cases h3; exact ⟨m, rfl⟩
    | _ => rw [h] at h3; cases h3
  obtain ⟨m, h5⟩ := h5
  refine ⟨es, m, σ + (Counting.hocon S n).steps ⟨Spec.docText ds, 0⟩, by omega, fun r σ1 => ?_⟩
  rw [← h5, ← Counting.c149_counts]
  exact clocked_hocon S n _ _ _ _

end OniComb.Hocon.Ticking
