import Verif.Lemmas.Calm
import Verif.Lemmas.HoconText
import Verif.Spec.HoconLoad

/-!
# Helper lemmas: the grammar of `hocon` panics at numbers only
-/

set_option linter.unusedSectionVars false

namespace OniComb.Hocon
open OniComb OniComb.Hocon.Spec
open OniComb.Uri (Bytes byte bytes fromUtf8 mapUnwrap text)

variable {A : Type} (S : Std) {t : Bytes}

theorem intText_of_eats {i v rest : Bytes} (h : Eats integer i v rest) : v = i ∧ IntText i := by
  unfold integer at h
  rcases eats_or.1 h with h | ⟨-, h⟩
  · obtain ⟨rfl, ⟨d, ds⟩, h⟩ := eats_collect.1 h
    obtain ⟨t1, t2, rfl, h1, h2⟩ := eats_andThen.1 h
    obtain ⟨rfl, h3, h4⟩ := eats_digit19.1 h1
    obtain ⟨rfl, h5, -⟩ := one_digit.eats_many0.1 h2
    exact ⟨rfl, .inr ⟨_, _, rfl, h3, h4, h5⟩⟩
  · obtain ⟨rfl, d, h⟩ := eats_collect.1 h
    obtain ⟨rfl, rfl⟩ := eats_elm.1 h
    exact ⟨rfl, .inl rfl⟩

theorem fracText_of_eats {f v rest : Bytes} (h : Eats (text frac) f v rest) : v = f ∧ FracText f := by
  obtain ⟨h1, ⟨d, ds⟩, h2⟩ := Uri.eats_text.1 h
  have hv : v = f := by
    unfold fromUtf8 at h1
    split at h1 <;> cases h1
    rfl
  refine ⟨hv, ?_⟩
  obtain ⟨t1, t2, rfl, h3, h4⟩ := eats_andThen.1 h2
  obtain ⟨rfl, rfl⟩ := eats_elm.1 h3
  obtain ⟨rfl, h5, h6, -⟩ := one_digit.eats_many1.1 h4
  exact ⟨_, rfl, h5, h6⟩

theorem expText_of_eats {e v rest : Bytes} (h : Eats (text exp) e v rest) : v = e ∧ ExpText e := by
  obtain ⟨h1, ⟨⟨c, s⟩, ds⟩, h2⟩ := Uri.eats_text.1 h
  have hv : v = e := by
    unfold fromUtf8 at h1
    split at h1 <;> cases h1
    rfl
  refine ⟨hv, ?_⟩
  obtain ⟨t1, t2, rfl, h3, h4⟩ := eats_andThen.1 h2
  obtain ⟨t3, t4, rfl, h7, h8⟩ := eats_andThen.1 h3
  obtain ⟨rfl, h9⟩ := eats_elmOfSet.1 h7
  obtain ⟨rfl, h5, h6, -⟩ := one_digit.eats_many1.1 h4
  refine ⟨c, t4, _, by simp, ?_, ?_, h5, h6⟩
  · revert h9; simp [bytes, setOfList]
  · rcases eats_opt.1 h8 with ⟨a, rfl, h⟩ | ⟨rfl, -⟩
    · obtain ⟨rfl, h10⟩ := eats_elmOfSet.1 h
      revert h10; simp [bytes, setOfList]
    · exact .inl rfl

theorem number_bad {k n : Nat} {v : Option UInt8 × Bytes × Option Bytes × Option Bytes} (hk : k ≤ t.length)
    (h : number ⟨t, k⟩ = .success v n) (hv : numberOf S v = none) :
    ∃ x i f e y, t = x ++ (i ++ f ++ e) ++ y ∧ BadNumber S.parseDecimal i f e := by
  have hs : ∃ t' rest, t.drop k = t' ++ rest ∧ Eats number t' v rest := by
    have h1 := (at_success (p := number) (t.take k) (t.drop k) v n).1
      (by rw [List.take_append_drop, List.length_take, Nat.min_eq_left hk]; exact h)
    obtain ⟨t', rest, h2, h3, h4⟩ := success_split h1
    exact ⟨t', rest, h2, h4⟩
  obtain ⟨t', rest, ht, h1⟩ := hs
  clear h
  unfold number spaced surround at h1
  obtain ⟨⟨⟨⟨s, i⟩, f⟩, e⟩, h2, rfl⟩ := eats_map.1 h1
  obtain ⟨b1, t2, -, rfl, -, h3⟩ := eats_skipLeft.1 h2
  obtain ⟨t3, b2, -, rfl, h4, -⟩ := eats_skipRight.1 h3
  unfold numberBare at h4
  obtain ⟨t4, te, rfl, h5, he⟩ := eats_andThen.1 h4
  obtain ⟨t5, tf, rfl, h6, hf⟩ := eats_andThen.1 h5
  obtain ⟨ts, ti, rfl, hs, hi⟩ := eats_andThen.1 h6
  obtain ⟨w, hw, hw'⟩ := eats_mapRes.1 hi
  obtain ⟨rfl, hint⟩ := intText_of_eats hw
  have hwi : i = w := by
    unfold fromUtf8 at hw'
    split at hw' <;> cases hw'
    rfl
  subst hwi
  have hf' : f = none ∧ tf = [] ∨ f = some tf ∧ FracText tf := by
    rcases eats_opt.1 hf with ⟨a, rfl, h⟩ | ⟨rfl, rfl, -⟩
    · obtain ⟨rfl, h⟩ := fracText_of_eats h; exact .inr ⟨rfl, h⟩
    · exact .inl ⟨rfl, rfl⟩
  have he' : e = none ∧ te = [] ∨ e = some te ∧ ExpText te := by
    rcases eats_opt.1 he with ⟨a, rfl, h⟩ | ⟨rfl, rfl, -⟩
    · obtain ⟨rfl, h⟩ := expText_of_eats h; exact .inr ⟨rfl, h⟩
    · exact .inl ⟨rfl, rfl⟩
  refine ⟨t.take k ++ b1 ++ ts, i, tf, te, b2 ++ rest, ?_, hint, ?_, ?_, ?_⟩
  · conv => lhs; rw [← List.take_append_drop k t, ht]
    simp
  · rcases hf' with ⟨-, h⟩ | ⟨-, h⟩; exacts [.inl h, .inr h]
  · rcases he' with ⟨-, h⟩ | ⟨-, h⟩; exacts [.inl h, .inr h]
  · have hne : ExpText te → te ≠ [] := by rintro ⟨c, s, ds, rfl, -⟩; simp
    rcases hf' with ⟨rfl, rfl⟩ | ⟨rfl, h⟩ <;> rcases he' with ⟨rfl, rfl⟩ | ⟨rfl, h'⟩
    · right; cases s <;> simpa [numberOf] using hv
    · exact .inl ⟨rfl, hne h'⟩
    · right; cases s <;> simpa [numberOf] using hv
    · right; cases s <;> simpa [numberOf] using hv

theorem calm_numberValue (h : NumbersFit S.parseDecimal t) : Calm t (numberValue S) := by
  have : Calm t number := calm_good _
  refine calm_mapUnwrap fun k v n hk hv => ?_
  cases hn : numberOf S v with
  | some w => rfl
  | none =>
    obtain ⟨x, i, f, e, y, h1, h2⟩ := number_bad S hk hv hn
    exact absurd h2 (h x i f e y h1)

theorem calm_spaced {p : Parser UInt8 A} (h : Calm t p) : Calm t (spaced p) := by
  have : Calm t spaceOrComment := calm_good _
  unfold spaced
  infer_instance

theorem calm_simple (h : NumbersFit S.parseDecimal t) : Calm t (simpleConfigValue S) := by
  have := calm_numberValue S h
  have : Calm t unitP := calm_good _
  have : Calm t (seq (bytes "null")) := calm_good _
  have : Calm t (seq (bytes "true")) := calm_good _
  have : Calm t (seq (bytes "false")) := calm_good _
  have : Calm t stringConfigValue := calm_good _
  unfold simpleConfigValue durationValue duration
  exact calm_spaced inferInstance

section
variable {cv : Parser UInt8 Value} {prop : Parser UInt8 (Bytes × Value)}

theorem calm_array [Calm t cv] : Calm t (arrayConfigValue cv) := by
  have : Calm t (spaced (elm (byte '['))) := calm_good _
  have : Calm t (spaced (elm (byte ']'))) := calm_good _
  have : Calm t (spaced (elm (byte ','))) := calm_good _
  unfold arrayConfigValue array
  infer_instance

theorem calm_object [Calm t prop] : Calm t (objectConfigValue prop) := by
  have : Calm t (spaced (elm (byte '{'))) := calm_good _
  have : Calm t (spaced (elm (byte '}'))) := calm_good _
  have : Calm t (opt (spaced (elm (byte ',')))) := calm_good _
  unfold objectConfigValue object
  infer_instance

theorem calm_property [Calm t cv] [Calm t prop] : Calm t (property cv prop) := by
  have : Calm t key := calm_good _
  have : Calm t kv := calm_good _
  have := calm_array (t := t) (cv := cv)
  have := calm_object (t := t) (prop := prop)
  unfold property
  infer_instance

theorem calm_configValue (h : NumbersFit S.parseDecimal t) [Calm t cv] [Calm t prop] : Calm t (configValue S cv prop) := by
  have := calm_array (t := t) (cv := cv)
  have := calm_object (t := t) (prop := prop)
  have := calm_simple S h
  have : Calm t referenceConfigValue := calm_good _
  have : Calm t enumerationConfigValue := calm_good _
  unfold configValue
  exact calm_spaced inferInstance
end

theorem calm_grammar (h : NumbersFit S.parseDecimal t) : ∀ n, Calm t (grammar S n).1 ∧ Calm t (grammar S n).2
  | 0 => ⟨inferInstanceAs (Calm t diverging), inferInstanceAs (Calm t diverging)⟩
  | n + 1 => by
    have h1 := (calm_grammar h n).1
    have h2 := (calm_grammar h n).2
    have h3 : Calm t (lazy fun _ => (grammar S n).1) := inferInstance
    have h4 : Calm t (lazy fun _ => (grammar S n).2) := inferInstance
    exact ⟨calm_configValue S h, calm_property⟩

theorem calm_hocon (h : NumbersFit S.parseDecimal t) (n : Nat) : Calm t (hocon S n) := by
  have h1 := (calm_grammar S h n).1
  have h2 := (calm_grammar S h n).2
  have := calm_array (t := t) (cv := (grammar S n).1)
  have := calm_object (t := t) (prop := (grammar S n).2)
  have : Calm t spaceOrComment := calm_good _
  have : Calm t (many1 includeConfigValue) := calm_good _
  have : Calm t (end_ : Parser UInt8 Unit) := calm_good _
  unfold hocon config
  infer_instance

end OniComb.Hocon
