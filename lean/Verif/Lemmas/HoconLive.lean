import Verif.Lemmas.Live
import Verif.Lemmas.HoconText

/-!
# Helper lemmas: the grammar of `hocon` returns on every text
-/

set_option linter.unusedSectionVars false

namespace OniComb.Hocon
open OniComb
open OniComb.Uri (Bytes byte bytes fromUtf8 parseUInt mapUnwrap text)

variable {A : Type} {n : Nat} (S : Std)

instance : Adv (seq (bytes "//")) := adv_seq (by decide)
instance : Adv (seq (bytes "\\u")) := adv_seq (by decide)
instance : Adv (seq (bytes "null")) := adv_seq (by decide)
instance : Adv (seq (bytes "true")) := adv_seq (by decide)
instance : Adv (seq (bytes "false")) := adv_seq (by decide)
instance : Adv (seq (bytes "${")) := adv_seq (by decide)
instance : Adv (seq (bytes "include")) := adv_seq (by decide)

instance : Live n space := by unfold space; infer_instance
instance : Live n comment := by unfold comment; infer_instance
instance : Live n spaceOrComment := by unfold spaceOrComment; infer_instance
instance {p : Parser UInt8 A} [Live n p] : Live n (spaced p) := by unfold spaced; infer_instance
instance {p : Parser UInt8 A} [Adv p] : Adv (spaced p) := by unfold spaced; infer_instance
instance : Live n includeMethod := by unfold includeMethod; infer_instance
instance : Live n integer := by unfold integer; infer_instance
instance : Adv integer := by unfold integer; infer_instance
instance : Live n frac := by unfold frac; infer_instance
instance : Live n exp := by unfold exp; infer_instance
instance : Live n numberBare := by unfold numberBare; infer_instance
instance : Adv numberBare := by unfold numberBare; infer_instance
instance : Live n number := by unfold number; infer_instance
instance : Adv number := by unfold number; infer_instance
instance : Live n (numberValue S) := by unfold numberValue; infer_instance
instance : Adv (numberValue S) := by unfold numberValue; infer_instance
instance (s : String) : Live n (spelling s) := by unfold spelling; infer_instance
instance : Live n unitP := by unfold unitP unitNs unitUs unitMs unitS unitM unitH unitD; infer_instance
instance : Live n (duration S) := by unfold duration; infer_instance
instance : Adv (duration S) := by unfold duration; infer_instance
instance : Live n (durationValue S) := by unfold durationValue; infer_instance
instance : Adv (durationValue S) := by unfold durationValue; infer_instance
instance : Live n specialChar := by unfold specialChar; infer_instance
instance : Live n charString := by unfold charString; infer_instance
instance : Adv charString := by unfold charString; infer_instance
instance : Live n utf16Char := by unfold utf16Char; infer_instance
instance : Adv utf16Char := by unfold utf16Char; infer_instance
instance : Live n utf16String := by unfold utf16String; infer_instance
instance : Adv utf16String := by unfold utf16String; infer_instance
instance : Live n stringSurround := by unfold stringSurround; infer_instance
instance : Adv stringSurround := by unfold stringSurround; infer_instance
instance (c : Char) : Live n (quote c) := by unfold quote; infer_instance
instance : Live n string := by unfold string; infer_instance
instance : Adv string := by unfold string; infer_instance
instance : Live n kv := by unfold kv; infer_instance
instance : Adv kv := by unfold kv; infer_instance
instance : Live n pathElement := by unfold pathElement; infer_instance
instance : Adv pathElement := by unfold pathElement; infer_instance
instance : Live n path := by unfold path; infer_instance
instance : Adv path := by unfold path; infer_instance
instance : Live n key := by unfold key; infer_instance
instance : Adv key := by unfold key; infer_instance
instance : Live n reference := by unfold reference; infer_instance
instance : Adv reference := by unfold reference; infer_instance
instance : Live n referenceConfigValue := by unfold referenceConfigValue; infer_instance
instance : Adv referenceConfigValue := by unfold referenceConfigValue; infer_instance
instance : Live n stringConfigValue := by unfold stringConfigValue; infer_instance
instance : Adv stringConfigValue := by unfold stringConfigValue; infer_instance
instance : Live n enumerationConfigValue := by unfold enumerationConfigValue; infer_instance
instance : Adv enumerationConfigValue := by unfold enumerationConfigValue; infer_instance
instance : Live n (simpleConfigValue S) := by unfold simpleConfigValue; infer_instance
instance : Adv (simpleConfigValue S) := by unfold simpleConfigValue; infer_instance
instance : Live n includeConfigValue := by unfold includeConfigValue; infer_instance
instance : Adv includeConfigValue := by unfold includeConfigValue; infer_instance

section
variable {cv : Parser UInt8 Value} {prop : Parser UInt8 (Bytes × Value)}

instance [Live n cv] [Adv cv] : Live n (array cv) := by unfold array; infer_instance
theorem live_array [h : Live n cv] [Adv cv] : Live (n + 1) (array cv) :=
  live_surround_adv inferInstance inferInstance inferInstance
instance : Adv (array cv) := by unfold array; infer_instance
instance [Live n cv] [Adv cv] : Live n (arrayConfigValue cv) := by unfold arrayConfigValue; infer_instance
instance : Adv (arrayConfigValue cv) := by unfold arrayConfigValue; infer_instance
instance [Live n prop] [Adv prop] : Live n (objectConfigValue prop) := by unfold objectConfigValue object; infer_instance
instance : Adv (objectConfigValue prop) := by unfold objectConfigValue object; infer_instance
instance : Adv (property cv prop) := by unfold property; infer_instance
instance : Adv (configValue S cv prop) := by unfold configValue; infer_instance

theorem live_arrayConfigValue (h : Live n cv) [Adv cv] : Live (n + 1) (arrayConfigValue cv) := by
  have := live_array (n := n) (cv := cv)
  unfold arrayConfigValue
  infer_instance

theorem live_objectConfigValue (h : Live n prop) [Adv prop] : Live (n + 1) (objectConfigValue prop) := by
  have : Live (n + 1) (surround (spaced (elm (byte '{'))) (many0Sep prop (opt (spaced (elm (byte ',')))))
    (spaced (elm (byte '}')))) := live_surround_adv inferInstance inferInstance inferInstance
  unfold objectConfigValue object
  infer_instance

theorem live_property (h : Live n cv) (h' : Live n prop) [Adv cv] [Adv prop] : Live (n + 1) (property cv prop) :=
  live_andThen_adv inferInstance inferInstance

theorem live_configValue (h : Live n cv) (h' : Live n prop) [Adv cv] [Adv prop] : Live (n + 1) (configValue S cv prop) := by
  have := live_arrayConfigValue h
  have := live_objectConfigValue h'
  unfold configValue
  infer_instance
end

theorem adv_grammar : ∀ n, Adv (grammar S n).1 ∧ Adv (grammar S n).2
  | 0 => ⟨inferInstanceAs (Adv diverging), inferInstanceAs (Adv diverging)⟩
  | n + 1 => ⟨inferInstanceAs (Adv (configValue S _ _)), inferInstanceAs (Adv (property _ _))⟩
instance (n : Nat) : Adv (grammar S n).1 := (adv_grammar S n).1
instance (n : Nat) : Adv (grammar S n).2 := (adv_grammar S n).2

theorem live_grammar : ∀ n, Live n (grammar S n).1 ∧ Live n (grammar S n).2
  | 0 => ⟨.zero, .zero⟩
  | n + 1 => by
    have h1 := (live_grammar n).1
    have h2 := (live_grammar n).2
    have h3 : Live n (lazy fun _ => (grammar S n).1) := inferInstance
    have h4 : Live n (lazy fun _ => (grammar S n).2) := inferInstance
    exact ⟨live_configValue S h3 h4, live_property h3 h4⟩

instance : Live n (hocon S n) := by
  have h1 := (live_grammar S n).1
  have h2 := (live_grammar S n).2
  unfold hocon config
  infer_instance

/-- The parser answers every text. -/
theorem hocon_returns {t : Bytes} (h : t.length < n) : parse (hocon S n) t ≠ .diverge := by
  have := (inferInstance : Live n (hocon S n)).live ⟨t, 0⟩ (by simp) (by simpa using h)
  unfold parse
  cases hp : hocon S n ⟨t, 0⟩ with
  | diverge => rw [hp] at this; exact this.elim
  | _ => simp [Res.toOut]

end OniComb.Hocon
