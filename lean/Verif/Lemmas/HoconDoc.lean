import Verif.Lemmas.HoconString
import Verif.Lemmas.HoconValue

/-! # Helper lemmas: texts of `hocon` values and documents -/

namespace OniComb.Hocon
open OniComb OniComb.Hocon.Spec
open OniComb.Uri (Bytes byte bytes fromUtf8 parseUInt mapUnwrap text)

variable {A B : Type} {t rest r : Bytes} {c : Committed} {S : Std}

/-! ### Distinct keys -/

theorem get_none_of_not_mem {k : Bytes} {es : Entries} (h : k ∉ es.map (·.1)) : get k es = none := by
  induction es with
  | nil => rfl
  | cons e es ih =>
    obtain ⟨k', v'⟩ := e
    simp only [List.map_cons, List.mem_cons, not_or] at h
    rw [get, if_neg (fun e => h.1 e.symm)]
    exact ih h.2

theorem fold_distinct (f : Value → Value → Value) (ps es : Entries) (h : (es.map (·.1) ++ ps.map (·.1)).Nodup) :
    ps.foldl (fun es e =>
      match get e.1 es with
      | none => insertNew e.1 e.2 es
      | some v => set e.1 (f v e.2) es) es = es ++ ps := by
  induction ps generalizing es with
  | nil => simp
  | cons e ps ih =>
    have h1 : get e.1 es = none := by
      refine get_none_of_not_mem fun hm => ?_
      rw [List.nodup_append] at h
      exact h.2.2 _ hm _ (by simp) rfl
    rw [List.foldl_cons]
    simp only [h1]
    rw [ih]
    · simp [insertNew]
    · simpa [insertNew] using h

theorem objectFold_distinct {ps : Entries} (h : (ps.map (·.1)).Nodup) : objectFold ps = ps := by
  unfold objectFold
  exact fold_distinct push ps [] (by simpa using h)

theorem configFold_distinct {ps : Entries} (h : (ps.map (·.1)).Nodup) : configFold ps = ps := by
  unfold configFold
  exact fold_distinct (fun v w => merge w v) ps [] (by simpa using h)

theorem valueEntries_keys (dec : Bytes → Option Decimal) (es : List (Bytes × Lit)) :
    (valueEntries dec es).map (·.1) = es.map (·.1) := by
  induction es with
  | nil => simp [valueEntries]
  | cons e es ih => obtain ⟨k, v⟩ := e; simp [valueEntries, valueEntry, ih]

/-! ### Depth -/

mutual
/-- How often the grammar has to be unrolled. -/
def litDepth (v : Lit) : Nat :=
  match v with
  | .arr vs => 1 + depthList vs
  | .obj es => 2 + depthEntries es
  | _ => 1
/-- The same for elements. -/
def depthList (vs : List Lit) : Nat :=
  match vs with
  | [] => 1
  | v :: vs => max (litDepth v) (depthList vs)
/-- The same for entries. -/
def depthEntries (es : List (Bytes × Lit)) : Nat :=
  match es with
  | [] => 1
  | e :: es => max (depthEntry e) (depthEntries es)
/-- The same for an entry. -/
def depthEntry (e : Bytes × Lit) : Nat :=
  match e with
  | (_, v) => litDepth v
end

/-! ### What follows a value -/

theorem gap_line : Gap (bytes "\n") := Blanks.gap (by decide)

/-- A property does not go on here, behind a `}`. -/
def ObjEnd (x : Bytes) : Prop := ∃ pre g z, (pre = [] ∨ pre = [byte ',']) ∧ x = pre ++ (byte '\n' :: g ++ z) ∧
  Gap (byte '\n' :: g) ∧ Quiet z ∧ NoHead (fun b => b ∈ bytes "=:{[") z

/-- What may follow a value: blanks, comments and then the rest. -/
structure After (v : Lit) (b2 rest : Bytes) : Prop where
  gap : Gap b2
  quiet : Quiet rest
  word : NoHead (fun b => NumByte b ∨ Letter b) (b2 ++ rest)
  num : v.isNum → NoHead UnitStart rest
  obj : ¬ v.flat → ObjEnd (b2 ++ rest)

section
variable {cv : Parser UInt8 Value} {prop : Parser UInt8 (Bytes × Value)} [Good cv] [Good prop]

theorem fail_array (hq : Quiet r) (hr : NoHead (fun b => b = byte '[') r) : Fail (arrayConfigValue cv) r .uncommitted := by
  unfold arrayConfigValue array
  exact .map _ (.surround (fail_spaced' hq (fail_elm.2 ⟨rfl, fun r' h => hr _ _ h rfl⟩)))

theorem fail_object (hq : Quiet r) (hr : NoHead (fun b => b = byte '{') r) : Fail (objectConfigValue prop) r .uncommitted := by
  unfold objectConfigValue object
  exact .map _ (.map _ (.surround (fail_spaced' hq (fail_elm.2 ⟨rfl, fun r' h => hr _ _ h rfl⟩))))

theorem fail_refValue (hq : Quiet r) (hr : NoHead (fun b => b = byte '$') r) :
    Fail (attempt referenceConfigValue) r .uncommitted := by
  unfold referenceConfigValue
  obtain ⟨c, hc⟩ := fail_reference hq hr
  exact fail_attempt_of (hc.map _)

theorem fail_enum (hq : Quiet r) (h3 : NoHead (fun b => ¬ Special b ∨ b ∈ bytes "\\\"'") r) :
    Fail enumerationConfigValue r .uncommitted := by
  unfold enumerationConfigValue
  refine .map _ (fail_many1.2 ⟨rfl, ?_⟩)
  obtain ⟨c, hc⟩ := fail_reference hq (h3.mono fun b hb => .inl (by rw [hb]; decide))
  refine ⟨c, .or (fail_attempt_of (c := .uncommitted) ?_) ?_⟩
  · unfold stringConfigValue; exact (fail_string hq h3).map _
  · unfold referenceConfigValue; exact hc.map _

theorem eats_cvSimple {v : Value} (hq : Quiet (t ++ rest)) (hr : Quiet rest)
    (hn : NoHead (fun b => b ∈ bytes "[{$") (t ++ rest)) (h : Eats (softSimple S) t v rest) :
    Eats (softConfigValue S cv prop) t v rest := by
  unfold softConfigValue
  have := eats_spaced' (t := t) (b2 := []) (rest := rest) (v := v)
    (p := or (or (or (or (attempt (arrayConfigValue cv)) (attempt (objectConfigValue prop)))
    (attempt referenceConfigValue)) (attempt (softSimple S))) enumerationConfigValue) gap_nil hq hr
    (.or_left (.or_right (.or (.or
      (fail_attempt_of (fail_array hq (hn.mono fun b hb => by rw [hb]; decide)))
      (fail_attempt_of (fail_object hq (hn.mono fun b hb => by rw [hb]; decide))))
      (fail_refValue hq (hn.mono fun b hb => by rw [hb]; decide))) h.attempt))
  simpa using this

theorem eats_cvArray {v : Value} (hq : Quiet (t ++ rest)) (hr : Quiet rest)
    (h : Eats (arrayConfigValue cv) t v rest) : Eats (softConfigValue S cv prop) t v rest := by
  unfold softConfigValue
  have := eats_spaced' (t := t) (b2 := []) (rest := rest) (v := v)
    (p := or (or (or (or (attempt (arrayConfigValue cv)) (attempt (objectConfigValue prop)))
    (attempt referenceConfigValue)) (attempt (softSimple S))) enumerationConfigValue) gap_nil hq hr
    (.or_left (.or_left (.or_left (.or_left h.attempt))))
  simpa using this

theorem eats_cvObject {v : Value} (hq : Quiet (t ++ rest)) (hr : Quiet rest)
    (hn : NoHead (fun b => b = byte '[') (t ++ rest))
    (h : Eats (objectConfigValue prop) t v rest) : Eats (softConfigValue S cv prop) t v rest := by
  unfold softConfigValue
  have := eats_spaced' (t := t) (b2 := []) (rest := rest) (v := v)
    (p := or (or (or (or (attempt (arrayConfigValue cv)) (attempt (objectConfigValue prop)))
    (attempt referenceConfigValue)) (attempt (softSimple S))) enumerationConfigValue) gap_nil hq hr
    (.or_left (.or_left (.or_left (.or_right (fail_attempt_of (fail_array hq hn)) h.attempt))))
  simpa using this

theorem eats_cvRef {v : Value} (hq : Quiet (t ++ rest)) (hr : Quiet rest)
    (hn : NoHead (fun b => b ∈ bytes "[{") (t ++ rest))
    (h : Eats referenceConfigValue t v rest) : Eats (softConfigValue S cv prop) t v rest := by
  unfold softConfigValue
  have := eats_spaced' (t := t) (b2 := []) (rest := rest) (v := v)
    (p := or (or (or (or (attempt (arrayConfigValue cv)) (attempt (objectConfigValue prop)))
    (attempt referenceConfigValue)) (attempt (softSimple S))) enumerationConfigValue) gap_nil hq hr
    (.or_left (.or_left (.or_right (.or
      (fail_attempt_of (fail_array hq (hn.mono fun b hb => by rw [hb]; decide)))
      (fail_attempt_of (fail_object hq (hn.mono fun b hb => by rw [hb]; decide)))) h.attempt)))
  simpa using this

/-- No value begins at a closing bracket. -/
theorem fail_cv_close : Fail (softConfigValue S cv prop) (byte ']' :: r) .uncommitted := by
  unfold softConfigValue
  have hq : Quiet (byte ']' :: r) := noHead_cons.2 (by decide)
  have h3 : NoHead (fun b => ¬ Special b ∨ b ∈ bytes "\\\"'") (byte ']' :: r) := noHead_cons.2 (by decide)
  exact fail_spaced' hq (.or (.or (.or (.or (fail_attempt_of (fail_array hq (noHead_cons.2 (by decide))))
    (fail_attempt_of (fail_object hq (noHead_cons.2 (by decide))))) (fail_refValue hq (noHead_cons.2 (by decide))))
    (fail_attempt_of (fail_softSimple hq (noHead_cons.2 (by decide)) (noHead_cons.2 (by decide)) h3))) (fail_enum hq h3))

/-! ### Properties -/

theorem eats_property {k : Bytes} {v : Value} (hk : PathText k) (h : Eats cv t v rest) :
    Eats (property cv prop) (k ++ (byte '=' :: t)) (k, v) rest := by
  unfold property
  have hkey := eats_key (b1 := []) (b2 := []) (rest := byte '=' :: t ++ rest) hk gap_nil blanks_nil
    (noHead_cons.2 (by decide)) (noHead_cons.2 (by unfold PathByte; decide))
  rw [List.nil_append, List.append_nil] at hkey
  refine Eats.andThen hkey (.or_left (.or_left (Eats.attempt ?_)))
  refine Eats.skipLeft (t1 := [byte '=']) (v := ()) ?_ h
  unfold kv
  exact eats_discard.2 ⟨byte '=', (one_of _).eats.2 ⟨rfl, by decide⟩⟩

/-- Behind a key there is neither `=` nor a bracket. -/
theorem fail_afterKey (hq : Quiet r) (hr : NoHead (fun b => b ∈ bytes "=:{[") r) :
    Fail (or (or (attempt (skipLeft kv cv)) (attempt (objectConfigValue prop))) (arrayConfigValue cv)) r .uncommitted := by
  refine .or (.or (fail_attempt_of (c := .uncommitted) (.skipLeft ?_)) (fail_attempt_of (fail_object hq ?_))) (fail_array hq ?_)
  · unfold kv
    refine fail_discard.2 ((one_of _).fail.2 ⟨rfl, hr.mono fun b hb => ?_⟩)
    exact (by decide : ∀ b ∈ bytes "=:", b ∈ bytes "=:{[") b hb
  · exact hr.mono fun b hb => by rw [hb]; decide
  · exact hr.mono fun b hb => by rw [hb]; decide

theorem fail_path (hr : NoHead SegByte r) : Fail (attempt path) r .uncommitted := by
  unfold path
  refine fail_attempt_of (c := .uncommitted) (Uri.fail_text (fail_many1Sep.2 ⟨rfl, .uncommitted, ?_⟩))
  unfold pathElement
  exact fail_collect.2 (one_seg.fail_many1.2 ⟨rfl, hr⟩)

theorem fail_property_close {x : Bytes} (h : ObjEnd x) : Fail (property cv prop) (byte '}' :: x) .uncommitted := by
  obtain ⟨pre, g, z, hp, rfl, hg, hq, hn⟩ := h
  unfold property
  have hkey : Eats key ((byte '}' :: pre) ++ (byte '\n' :: g)) (byte '}' :: pre) z := by
    unfold key
    refine eats_spaced' hg (noHead_cons.2 (by decide)) hq
      (.or_right (fail_path (noHead_cons.2 (by decide))) (eats_unquoted (noHead_cons.2 (by decide)) (by simp) ?_ ?_ ?_))
    · rcases hp with rfl | rfl <;> decide
    · rcases hp with rfl | rfl <;> decide
    · exact noHead_cons.2 (by decide)
  have := hkey.andThen_fail (fail_afterKey (cv := cv) (prop := prop) hq hn)
  simpa using this

theorem fail_property_end : Fail (property cv prop) [] .uncommitted := by
  unfold property key
  exact .andThen (fail_spaced' noHead_nil (.or (fail_path noHead_nil) (fail_string noHead_nil noHead_nil)))

/-! ### Arrays and objects -/

/-- Elements that are read in front of `,` and `]`. -/
def Element' (cv : Parser UInt8 Value) (dec : Bytes → Option Decimal) (v : Lit) : Prop :=
  (∀ r, Quiet (v.text ++ r)) ∧ ∀ r b, b = byte ',' ∨ b = byte ']' → Eats cv v.text (v.value dec) (b :: r)

theorem eats_elements {dec : Bytes → Option Decimal} (vs : List Lit) (h : ∀ v ∈ vs, Element' cv dec v)
    (h0 : ∃ c, Fail cv (byte ']' :: r) c) :
    Eats (many0Sep cv (spaced (elm (byte ',')))) (textList vs) (valueList dec vs) (byte ']' :: r) := by
  refine eats_many0Sep.2 ?_
  cases vs with
  | nil => exact .inl ⟨by simp [textList], by simp [valueList], h0⟩
  | cons v vs =>
    right
    have key : ∀ vs : List Lit, (∀ v ∈ vs, Element' cv dec v) →
        SepMany cv (spaced (elm (byte ','))) (if vs.isEmpty then [] else byte ',' :: textList vs) (valueList dec vs)
          (byte ']' :: r) := by
      intro vs h
      induction vs with
      | nil => simpa [valueList] using SepMany.nil (p := cv) (q := spaced (elm (byte ','))) (byte ']' :: r)
      | cons v vs ih =>
        have hv := h v (by simp)
        have ih := ih fun x hx => h x (by simp [hx])
        simp only [List.isEmpty_cons, Bool.false_eq_true, if_false, textList, valueList]
        refine SepMany.cons (s := [byte ',']) (t := v.text) (b := byte ',') ?_ ?_ ih
        · have := eats_spaced' (p := elm (byte ',')) (t := [byte ',']) (b2 := []) (v := byte ',') gap_nil
            (rest := v.text ++ ((if vs.isEmpty then [] else byte ',' :: textList vs) ++ byte ']' :: r))
            (noHead_cons.2 (by decide)) (hv.1 _) (eats_elm.2 ⟨rfl, rfl⟩)
          simpa using this
        · cases vs with
          | nil => exact hv.2 _ _ (.inr rfl)
          | cons w ws => exact hv.2 _ _ (.inl rfl)
    refine eats_many1Sep.2 ⟨v.text, (if vs.isEmpty then [] else byte ',' :: textList vs), [], v.value dec,
      valueList dec vs, ?_, ?_, ?_, ?_, .inl ⟨rfl, .uncommitted, ?_⟩⟩
    · simp [textList]
    · simp [valueList]
    · cases vs with
      | nil => exact (h v (by simp)).2 _ _ (.inr rfl)
      | cons w ws => exact (h v (by simp)).2 _ _ (.inl rfl)
    · exact key vs fun x hx => h x (by simp [hx])
    · exact fail_spaced' (noHead_cons.2 (by decide)) (fail_elm.2 ⟨rfl, by rintro r' ⟨⟩⟩)

theorem eats_arrayValue {dec : Bytes → Option Decimal} {vs : List Lit} {b2 : Bytes} (h : ∀ v ∈ vs, Element' cv dec v)
    (h0 : ∀ r, ∃ c, Fail cv (byte ']' :: r) c) (h2 : Gap b2) (hq : Quiet rest) :
    Eats (arrayConfigValue cv) ((Lit.arr vs).text ++ b2) ((Lit.arr vs).value dec) rest := by
  have h1 := eats_elements (r := b2 ++ rest) vs h (h0 _)
  have h3 : Eats (spaced (elm (byte ']'))) ([byte ']'] ++ b2) (byte ']') rest :=
    eats_spaced' h2 (noHead_cons.2 (by decide)) hq (eats_elm.2 ⟨rfl, rfl⟩)
  have hquiet : Quiet (textList vs ++ (byte ']' :: (b2 ++ rest))) := by
    cases vs with
    | nil => rw [textList]; exact noHead_cons.2 (by decide)
    | cons v vs => rw [textList, List.append_assoc]; exact (h v (by simp)).1 _
  have h4 : Eats (spaced (elm (byte '['))) [byte '['] (byte '[') (textList vs ++ (byte ']' :: (b2 ++ rest))) := by
    have := eats_spaced' (p := elm (byte '[')) (t := [byte '[']) (b2 := []) (v := byte '[') gap_nil
      (rest := textList vs ++ (byte ']' :: (b2 ++ rest))) (noHead_cons.2 (by decide)) hquiet (eats_elm.2 ⟨rfl, rfl⟩)
    simpa using this
  have := Eats.surround (t2 := textList vs) (t3 := [byte ']'] ++ b2) (rest := rest) h4 h1 h3
  unfold arrayConfigValue array
  refine eats_map.2 ⟨valueList dec vs, ?_, by simp [Lit.value]⟩
  simpa [Lit.text] using this

/-- Entries that are read in front of `,`, line end and next key, and of line end and `}`. -/
def Entry' (prop : Parser UInt8 (Bytes × Value)) (dec : Bytes → Option Decimal) (e : Bytes × Lit) : Prop :=
  PathText e.1 ∧ (∀ k r, PathText k → Eats prop (textEntry e) (valueEntry dec e) (bytes ",\n" ++ (k ++ r))) ∧
  ∀ r, Eats prop (textEntry e ++ bytes "\n") (valueEntry dec e) (byte '}' :: r)

omit [Good prop] in
theorem eats_entries {dec : Bytes → Option Decimal} {x : Bytes} (es : List (Bytes × Lit)) :
    ∀ e, (∀ e' ∈ e :: es, Entry' prop dec e') → ∃ t1 t2, textEntries (e :: es) = t1 ++ t2 ∧
      Eats prop t1 (valueEntry dec e) (t2 ++ (byte '}' :: x)) ∧
      SepMany prop (opt (spaced (elm (byte ',')))) t2 (valueEntries dec es) (byte '}' :: x) := by
  induction es with
  | nil =>
    intro e h
    refine ⟨textEntry e ++ bytes "\n", [], by simp [textEntries], (h e (by simp)).2.2 _, ?_⟩
    rw [valueEntries]
    exact .nil _
  | cons e' es ih =>
    intro e h
    obtain ⟨t1, t2, h1, h2, h3⟩ := ih e' fun y hy => h y (List.mem_cons_of_mem _ hy)
    have hk : ∃ y, t1 ++ t2 = e'.1 ++ y := by
      rw [← h1, textEntries]
      obtain ⟨k, v⟩ := e'
      simp only [textEntry]
      exact ⟨_, by rw [List.append_assoc]⟩
    obtain ⟨y, hy⟩ := hk
    have hke : PathText e'.1 := (h e' (by simp)).1
    refine ⟨textEntry e, bytes ",\n" ++ (t1 ++ t2), ?_, ?_, ?_⟩
    · rw [textEntries, ← h1]; simp
    · rw [List.append_assoc, hy, List.append_assoc]
      exact (h e (by simp)).2.1 _ _ hke
    · rw [valueEntries]
      refine .cons (b := some (byte ',')) ?_ h2 h3
      refine eats_opt.2 (.inl ⟨byte ',', rfl, ?_⟩)
      rw [← List.append_assoc, hy, List.append_assoc]
      exact eats_spaced' (t := [byte ',']) (b2 := [byte '\n']) gap_line (noHead_cons.2 (by decide)) (pathText_quiet hke)
        (eats_elm.2 ⟨rfl, rfl⟩)

theorem eats_objectValue {dec : Bytes → Option Decimal} {es : List (Bytes × Lit)} {b2 : Bytes} (hne : es ≠ [])
    (hd : (es.map (·.1)).Nodup) (h : ∀ e ∈ es, Entry' prop dec e)
    (h0 : ∃ c, Fail prop (byte '}' :: (b2 ++ rest)) c) (h2 : Gap b2) (hq : Quiet rest) :
    Eats (objectConfigValue prop) ((Lit.obj es).text ++ b2) ((Lit.obj es).value dec) rest := by
  have h1 : Eats (many0Sep prop (opt (spaced (elm (byte ','))))) (textEntries es) (valueEntries dec es)
      (byte '}' :: (b2 ++ rest)) := by
    refine eats_many0Sep.2 (.inr ?_)
    cases es with
    | nil => exact absurd rfl hne
    | cons e es =>
      obtain ⟨t1, t2, h3, h4, h5⟩ := eats_entries (x := b2 ++ rest) es e h
      refine eats_many1Sep.2 ⟨t1, t2, [], _, _, by simpa using h3, by rw [valueEntries], h4, h5, .inr ⟨⟨none, ?_⟩, h0⟩⟩
      exact eats_opt.2 (.inr ⟨rfl, rfl, .uncommitted, fail_spaced' (noHead_cons.2 (by decide))
        (fail_elm.2 ⟨rfl, by rintro r' ⟨⟩⟩)⟩)
  have h3 : Eats (spaced (elm (byte '}'))) ([byte '}'] ++ b2) (byte '}') rest :=
    eats_spaced' h2 (noHead_cons.2 (by decide)) hq (eats_elm.2 ⟨rfl, rfl⟩)
  have hquiet : Quiet (textEntries es ++ (byte '}' :: (b2 ++ rest))) := by
    cases es with
    | nil => exact absurd rfl hne
    | cons e es =>
      obtain ⟨k, v⟩ := e
      rw [textEntries, textEntry, List.append_assoc, List.append_assoc]
      exact pathText_quiet (h (k, v) (by simp)).1
  have h4 : Eats (spaced (elm (byte '{'))) [byte '{'] (byte '{') (textEntries es ++ (byte '}' :: (b2 ++ rest))) := by
    have := eats_spaced' (p := elm (byte '{')) (t := [byte '{']) (b2 := []) (v := byte '{') gap_nil
      (rest := textEntries es ++ (byte '}' :: (b2 ++ rest))) (noHead_cons.2 (by decide)) hquiet (eats_elm.2 ⟨rfl, rfl⟩)
    simpa using this
  have := Eats.surround (t2 := textEntries es) (t3 := [byte '}'] ++ b2) (rest := rest) h4 h1 h3
  unfold objectConfigValue object
  refine eats_map.2 ⟨objectFold (valueEntries dec es), eats_map.2 ⟨valueEntries dec es, ?_, rfl⟩, ?_⟩
  · simpa [Lit.text] using this
  · rw [objectFold_distinct (by rw [valueEntries_keys]; exact hd)]
    simp [Lit.value]

end

/-! ### Values -/

variable {dec : Bytes → Option Decimal}

theorem okList_mem {vs : List Lit} (h : OkList dec vs) : ∀ v ∈ vs, v.Ok dec ∧ v.flat := by
  induction vs with
  | nil => simp
  | cons w vs ih =>
    rw [OkList] at h
    intro v hv
    rcases List.mem_cons.1 hv with rfl | hv
    · exact ⟨h.1, h.2.1⟩
    · exact ih h.2.2 v hv

theorem okEntries_mem {es : List (Bytes × Lit)} (h : OkEntries dec es) : ∀ e ∈ es, PathText e.1 ∧ e.2.Ok dec := by
  induction es with
  | nil => simp
  | cons w es ih =>
    obtain ⟨k, v⟩ := w
    rw [OkEntries, OkEntry] at h
    intro e he
    rcases List.mem_cons.1 he with rfl | he
    · exact h.1
    · exact ih h.2 e he

theorem depthList_mem {vs : List Lit} : ∀ v ∈ vs, litDepth v ≤ depthList vs := by
  induction vs with
  | nil => simp
  | cons w vs ih =>
    intro v hv
    rw [depthList]
    rcases List.mem_cons.1 hv with rfl | hv
    · omega
    · have := ih v hv; omega

theorem one_le_depthList (vs : List Lit) : 1 ≤ depthList vs := by
  induction vs with
  | nil => simp [depthList]
  | cons w vs ih => rw [depthList]; omega

theorem one_le_depthEntries (es : List (Bytes × Lit)) : 1 ≤ depthEntries es := by
  induction es with
  | nil => simp [depthEntries]
  | cons w vs ih => rw [depthEntries]; omega

theorem depthEntries_mem {es : List (Bytes × Lit)} : ∀ e ∈ es, litDepth e.2 ≤ depthEntries es := by
  induction es with
  | nil => simp
  | cons w es ih =>
    obtain ⟨k, v⟩ := w
    intro e he
    rw [depthEntries, depthEntry]
    rcases List.mem_cons.1 he with rfl | he
    · dsimp only; omega
    · have := ih e he; omega

theorem text_quiet {v : Lit} (h : v.Ok dec) : Quiet (v.text ++ r) := by
  cases v with
  | null => rw [Lit.text]; exact noHead_cons.2 (by decide)
  | bool b => cases b <;> rw [Lit.text] <;> exact noHead_cons.2 (by decide)
  | num t => rw [Lit.Ok] at h; rw [Lit.text]; exact decimalText_quiet h.1
  | dur t sp u => rw [Lit.Ok] at h; rw [Lit.text, List.append_assoc]; exact decimalText_quiet h.1.1
  | str s => rw [Lit.text]; exact noHead_cons.2 (by decide)
  | quoted q items =>
    rw [Lit.Ok] at h
    rw [Lit.text]
    rcases h.1 with rfl | rfl <;> exact noHead_cons.2 (by decide)
  | ref o p => cases o <;> rw [Lit.text] <;> exact noHead_cons.2 (by decide)
  | arr vs => rw [Lit.text]; exact noHead_cons.2 (by decide)
  | obj es => rw [Lit.text]; exact noHead_cons.2 (by decide)

theorem pathText_noOpen {k : Bytes} (hk : PathText k) : NoHead (fun b => b ∈ bytes "=:{[") (k ++ r) := by
  obtain ⟨b, x, rfl, hb⟩ := pathText_head hk
  exact noHead_cons.2 fun hm => (by decide : ∀ b ∈ bytes "=:{[", ¬ SegByte b) b hm hb

theorem eats_lit (S : Std) (n : Nat) : ∀ v b2 rest, litDepth v ≤ n → v.Ok S.parseDecimal → After v b2 rest →
    Eats (softGrammar S n).1 (v.text ++ b2) (v.value S.parseDecimal) rest := by
  induction n using Nat.strongRecOn with
  | _ n ih =>
  intro v b2 rest hn hv ha
  obtain ⟨m, rfl⟩ : ∃ m, n = m + 1 := by
    refine ⟨n - 1, ?_⟩
    have : 1 ≤ litDepth v := by cases v <;> (simp [litDepth]; try omega)
    omega
  show Eats (softConfigValue S (lazy fun _ => (softGrammar S m).1) (lazy fun _ => (softGrammar S m).2)) _ _ _
  have hq : Quiet (v.text ++ b2 ++ rest) := by rw [List.append_assoc]; exact text_quiet hv
  cases v with
  | null =>
    rw [Lit.text, Lit.value] at *
    exact eats_cvSimple hq ha.quiet (noHead_cons.2 (by decide)) (eats_const (by simp) ha.gap ha.quiet)
  | bool b =>
    cases b
    · rw [Lit.text, Lit.value] at *
      exact eats_cvSimple hq ha.quiet (noHead_cons.2 (by decide)) (eats_const (by simp) ha.gap ha.quiet)
    · rw [Lit.text, Lit.value] at *
      exact eats_cvSimple hq ha.quiet (noHead_cons.2 (by decide)) (eats_const (by simp) ha.gap ha.quiet)
  | num t =>
    rw [Lit.Ok] at hv
    obtain ⟨h1, h2⟩ := hv
    obtain ⟨d, hd⟩ := Option.isSome_iff_exists.1 h2
    rw [Lit.text, Lit.value] at *
    rw [hd, Option.getD_some]
    refine eats_cvSimple hq ha.quiet ?_ (eats_numberText h1 hd ha.gap (ha.word.mono fun _ => .inl) ha.quiet (ha.num trivial))
    obtain ⟨b, x, rfl, hb⟩ := decimalText_head h1
    exact noHead_cons.2 fun hm => digit_noConst hb ((by decide : ∀ b ∈ bytes "[{$", b ∈ bytes "ntf[{$") b hm)
  | dur t sp u =>
    rw [Lit.Ok] at hv
    obtain ⟨⟨h1, h2⟩, h3⟩ := hv
    obtain ⟨d, hd⟩ := Option.isSome_iff_exists.1 h2
    rw [Lit.text, Lit.value] at *
    rw [hd, Option.getD_some]
    refine eats_cvSimple hq ha.quiet ?_ (eats_durValue h1 hd h3 ha.gap (ha.word.mono fun _ => .inr) ha.quiet)
    obtain ⟨b, x, rfl, hb⟩ := decimalText_head h1
    exact noHead_cons.2 fun hm => digit_noConst hb ((by decide : ∀ b ∈ bytes "[{$", b ∈ bytes "ntf[{$") b hm)
  | str s =>
    rw [Lit.Ok] at hv
    rw [Lit.text, Lit.value] at *
    have := eats_strValue (S := S) hv ha.gap ha.quiet
    refine eats_cvSimple hq ha.quiet (noHead_cons.2 (by decide)) ?_
    simpa using this
  | quoted q items =>
    rw [Lit.Ok] at hv
    rw [Lit.text, Lit.value] at *
    have := eats_escValue (S := S) hv.1 hv.2.1 hv.2.2.1 hv.2.2.2 ha.gap ha.quiet
    refine eats_cvSimple hq ha.quiet ?_ ?_
    · rcases hv.1 with rfl | rfl <;> exact noHead_cons.2 (by decide)
    · simpa using this
  | ref o p =>
    rw [Lit.Ok] at hv
    have := eats_reference (o := o) hv ha.gap ha.quiet
    have h1 : Eats referenceConfigValue ((Lit.ref o p).text ++ b2) ((Lit.ref o p).value S.parseDecimal) rest := by
      unfold referenceConfigValue
      refine eats_map.2 ⟨(o, joinDot p), ?_, by rw [Lit.value]⟩
      cases o
      · rw [Lit.text]; simpa using this
      · rw [Lit.text]
        have hb : bytes "${?" = bytes "${" ++ bytes "?" := by decide
        rw [hb]
        simpa using this
    refine eats_cvRef hq ha.quiet ?_ h1
    cases o <;> rw [Lit.text] <;> exact noHead_cons.2 (by decide)
  | arr vs =>
    rw [Lit.Ok] at hv
    rw [litDepth] at hn
    have hm := one_le_depthList vs
    refine eats_cvArray hq ha.quiet (eats_arrayValue ?_ ?_ ha.gap ha.quiet)
    · intro w hw
      have h1 := okList_mem hv w hw
      have h2 := depthList_mem w hw
      refine ⟨fun r => text_quiet h1.1, fun r b hb => ?_⟩
      have := ih m (by omega) w [] (b :: r) (by omega) h1.1 ⟨gap_nil, ?_, ?_, ?_, fun h => absurd h1.2 h⟩
      · rw [List.append_nil] at this; exact this
      · rcases hb with rfl | rfl <;> exact noHead_cons.2 (by decide)
      · rcases hb with rfl | rfl <;> exact noHead_cons.2 (by decide)
      · intro _
        rcases hb with rfl | rfl <;> exact noHead_cons.2 (by unfold UnitStart; decide)
    · intro r
      obtain ⟨l, rfl⟩ : ∃ l, m = l + 1 := ⟨m - 1, by omega⟩
      exact ⟨.uncommitted, fail_cv_close⟩
  | obj es =>
    rw [Lit.Ok] at hv
    obtain ⟨hne, hd, hv⟩ := hv
    rw [litDepth] at hn
    have hm := one_le_depthEntries es
    obtain ⟨l, rfl⟩ : ∃ l, m = l + 1 := ⟨m - 1, by omega⟩
    refine eats_cvObject hq ha.quiet (by rw [Lit.text]; exact noHead_cons.2 (by decide))
      (eats_objectValue hne hd ?_ ?_ ha.gap ha.quiet)
    · rintro ⟨k, w⟩ he
      have h1 := okEntries_mem hv _ he
      have h2 := depthEntries_mem _ he
      dsimp only at h1 h2
      refine ⟨h1.1, fun k' r hk' => ?_, fun r => ?_⟩
      · have := ih l (by omega) w [] (bytes ",\n" ++ (k' ++ r)) (by omega) h1.2 ⟨gap_nil, ?_, ?_, ?_, ?_⟩
        · rw [List.append_nil] at this
          rw [textEntry, valueEntry]
          exact eats_property h1.1 this
        · exact noHead_cons.2 (by decide)
        · exact noHead_cons.2 (by decide)
        · intro _; exact noHead_cons.2 (by unfold UnitStart; decide)
        · intro _
          exact ⟨[byte ','], [], k' ++ r, .inr rfl, rfl, gap_line, pathText_quiet hk', pathText_noOpen hk'⟩
      · have := ih l (by omega) w (bytes "\n") (byte '}' :: r) (by omega) h1.2 ⟨gap_line, ?_, ?_, ?_, ?_⟩
        · rw [textEntry, valueEntry, List.append_assoc]
          exact eats_property h1.1 this
        · exact noHead_cons.2 (by decide)
        · exact noHead_cons.2 (by decide)
        · intro _; exact noHead_cons.2 (by unfold UnitStart; decide)
        · intro _
          exact ⟨[], [], byte '}' :: r, .inl rfl, rfl, gap_line, noHead_cons.2 (by decide), noHead_cons.2 (by decide)⟩
    · exact ⟨.uncommitted, fail_property_close (ha.obj (fun h => h))⟩

/-! ### Documents -/

theorem docText_head (ds : List (Bytes × Lit)) (h : DocOk S.parseDecimal ds) : docText ds = [] ∨
    ∃ k r, PathText k ∧ docText ds = k ++ r ∧ ∃ e, ds.head? = some e ∧ e.1 = k := by
  cases ds with
  | nil => exact .inl rfl
  | cons e ds =>
    obtain ⟨k, v⟩ := e
    rw [DocOk] at h
    exact .inr ⟨k, byte '=' :: v.text ++ byte '\n' :: docText ds, h.1, by simp [docText], _, rfl, rfl⟩

theorem docText_quiet (ds : List (Bytes × Lit)) (h : DocOk S.parseDecimal ds) : Quiet (docText ds) ∧
    NoHead (fun b => b ∈ bytes "=:{[") (docText ds) := by
  rcases docText_head ds h with h | ⟨k, r, hk, h, -⟩
  · rw [h]; exact ⟨noHead_nil, noHead_nil⟩
  · rw [h]; exact ⟨pathText_quiet hk, pathText_noOpen hk⟩

theorem many_doc (S : Std) (n : Nat) (ds : List (Bytes × Lit)) (hn : depthEntries ds ≤ n) (h : DocOk S.parseDecimal ds) :
    Many (softGrammar S (n + 1)).2 (docText ds) (valueEntries S.parseDecimal ds) [] := by
  induction ds with
  | nil => rw [docText, valueEntries]; exact .nil _
  | cons e ds ih =>
    obtain ⟨k, v⟩ := e
    rw [DocOk] at h
    rw [depthEntries, depthEntry] at hn
    have hq := docText_quiet ds h.2.2.2
    rw [docText, valueEntries, valueEntry]
    have h1 := eats_lit S n v (bytes "\n") (docText ds) (by omega) h.2.1 ⟨gap_line, hq.1, ?_, ?_, ?_⟩
    · have h2 : Eats (softGrammar S (n + 1)).2 (k ++ (byte '=' :: (v.text ++ bytes "\n"))) (k, v.value S.parseDecimal)
          (docText ds ++ []) := by
        rw [List.append_nil]
        exact eats_property h.1 h1
      have := Many.cons h2 (ih (by omega) h.2.2.2)
      simpa [show bytes "\n" = [byte '\n'] from rfl] using this
    · exact noHead_cons.2 (by decide)
    · intro hnum
      rcases docText_head ds h.2.2.2 with h' | ⟨k', r, hk', h', e, he, rfl⟩
      · rw [h']; exact noHead_nil
      · rw [h']
        obtain ⟨b, x, hx, -⟩ := pathText_head hk'
        rw [hx]
        exact noHead_cons.2 (h.2.2.1 hnum e he b (by rw [hx]; rfl))
    · intro _
      exact ⟨[], [], docText ds, .inl rfl, rfl, gap_line, hq.1, hq.2⟩

theorem hocon_doc (S : Std) (n : Nat) (ds : List (Bytes × Lit)) (hne : ds ≠ []) (hn : depthEntries ds ≤ n)
    (h : DocOk S.parseDecimal ds) :
    parse (hocon S (n + 1)) (docText ds) = .ok [.obj (configFold (valueEntries S.parseDecimal ds))] := by
  have h1 : parse (softHocon S (n + 1)) (docText ds) = .ok [.obj (configFold (valueEntries S.parseDecimal ds))] := by
    unfold softHocon
    refine parse_end_ok.2 ?_
    have h2 : Eats (many1 (softGrammar S (n + 1)).2) (docText ds) (valueEntries S.parseDecimal ds) [] := by
      refine eats_many1.2 ⟨?_, many_doc S n ds hn h, .uncommitted, fail_property_end⟩
      cases ds with
      | nil => exact absurd rfl hne
      | cons e ds => rw [valueEntries]; simp
    have h3 := Eats.skipLeft (p := spaceOrComment) (t1 := []) (t2 := docText ds) (rest := [])
      (q := config (softGrammar S (n + 1)).1 (softGrammar S (n + 1)).2)
      (eats_blanks blanks_nil (by rw [List.append_nil]; exact (docText_quiet ds h).1))
      (.or_left (.or_left (h2.map (fun ps => [Value.obj (configFold ps)])).attempt))
    simpa using h3
  have h4 : Below (softHocon S (n + 1)) (hocon S (n + 1)) := inferInstance
  unfold parse at h1 ⊢
  rw [h4.eq]
  · exact h1
  · intro h5
    rw [h5] at h1
    cases h1

/-! ### Documents with comments -/

/-- What is between a value and the next definition. -/
theorem gap_notes {n : Notes} {v : Lit} {cs : List Bytes} (h : ∀ b c, n.after = some (b, c) →
    (∀ x ∈ b, x = byte ' ' ∨ x = byte '\t') ∧ CommentLine c ∧ v.flat) (hc : ∀ c ∈ cs, CommentLine c) :
    Gap (n.behind ++ byte '\n' :: commentLines cs) ∧
    (∀ r, NoHead (fun b => NumByte b ∨ Letter b) (n.behind ++ byte '\n' :: commentLines cs ++ r)) ∧
    (¬ v.flat → n.behind = []) := by
  unfold Notes.behind
  cases ha : n.after with
  | none => exact ⟨⟨bytes "\n", cs, by decide, hc, rfl⟩, fun r => noHead_cons.2 (by decide), fun _ => rfl⟩
  | some bc =>
    obtain ⟨b, c⟩ := bc
    obtain ⟨h1, h2, h3⟩ := h b c ha
    refine ⟨⟨b, c :: cs, ?_, ?_, ?_⟩, fun r => ?_, fun h => absurd h3 h⟩
    · intro x hx
      rcases h1 x hx with rfl | rfl <;> decide
    · intro x hx
      rcases List.mem_cons.1 hx with rfl | hx
      · exact h2
      · exact hc x hx
    · simp [commentLines]
    · cases b with
      | nil =>
        obtain ⟨⟨x, rfl | rfl⟩, -⟩ := h2
        · exact noHead_cons.2 (by decide)
        · exact noHead_cons.2 (by decide)
      | cons x b =>
        refine noHead_cons.2 ?_
        rcases h1 x (by simp) with rfl | rfl <;> decide

theorem many_noted (S : Std) (n : Nat) (ds : List (Bytes × Lit)) (hn : depthEntries ds ≤ n) (h : DocOk S.parseDecimal ds) :
    ∀ ns, NotesOk ns ds → ∃ cs x, noted ns ds = commentLines cs ++ x ∧ (∀ c ∈ cs, CommentLine c) ∧
      Many (softGrammar S (n + 1)).2 x (valueEntries S.parseDecimal ds) [] ∧
      (ds = [] ∧ x = [] ∨ ∃ k r e, PathText k ∧ x = k ++ r ∧ ds.head? = some e ∧ e.1 = k) := by
  induction ds with
  | nil =>
    intro ns hns
    cases ns with
    | nil => exact ⟨[], [], rfl, by simp, by rw [valueEntries]; exact .nil _, .inl ⟨rfl, rfl⟩⟩
    | cons m ns => exact ⟨m.before, [], by simp [noted], hns, by rw [valueEntries]; exact .nil _, .inl ⟨rfl, rfl⟩⟩
  | cons e ds ih =>
    intro ns hns
    obtain ⟨k, v⟩ := e
    cases ns with
    | nil =>
      refine ⟨[], docText ((k, v) :: ds), rfl, by simp, many_doc S n _ hn h,
        .inr ⟨k, byte '=' :: v.text ++ byte '\n' :: docText ds, _, ?_, ?_, rfl, rfl⟩⟩
      · rw [DocOk] at h; exact h.1
      · rw [docText, List.append_assoc]
    | cons m ns =>
      rw [NotesOk] at hns
      rw [DocOk] at h
      rw [depthEntries, depthEntry] at hn
      obtain ⟨cs, x, h1, h2, h3, h4⟩ := ih (by omega) h.2.2.2 ns hns.2.2
      have hx : Quiet x ∧ NoHead (fun b => b ∈ bytes "=:{[") x := by
        rcases h4 with ⟨-, rfl⟩ | ⟨k', r, e, hk', rfl, -⟩
        · exact ⟨noHead_nil, noHead_nil⟩
        · exact ⟨pathText_quiet hk', pathText_noOpen hk'⟩
      obtain ⟨hg, hw, hb⟩ := gap_notes (v := v) hns.2.1 h2
      refine ⟨m.before, k ++ byte '=' :: v.text ++ m.behind ++ byte '\n' :: noted ns ds, by rw [noted], hns.1, ?_,
        .inr ⟨k, _, _, h.1, by simp only [List.append_assoc]; rfl, rfl, rfl⟩⟩
      rw [valueEntries, valueEntry, h1]
      have h5 := eats_lit S n v (m.behind ++ byte '\n' :: commentLines cs) x (by omega) h.2.1 ⟨hg, hx.1, hw x, ?_, ?_⟩
      · have h6 : Eats (softGrammar S (n + 1)).2 (k ++ (byte '=' :: (v.text ++ (m.behind ++ byte '\n' :: commentLines cs))))
            (k, v.value S.parseDecimal) (x ++ []) := by
          rw [List.append_nil]
          exact eats_property h.1 h5
        have := Many.cons h6 h3
        simpa using this
      · intro hnum
        rcases h4 with ⟨-, rfl⟩ | ⟨k', r, e, hk', rfl, he, rfl⟩
        · exact noHead_nil
        · obtain ⟨b, y, hy, -⟩ := pathText_head hk'
          rw [hy]
          exact noHead_cons.2 (h.2.2.1 hnum e he b (by rw [hy]; rfl))
      · intro hf
        have hb := hb hf
        rw [hb] at hg ⊢
        exact ⟨[], commentLines cs, x, .inl rfl, rfl, hg, hx.1, hx.2⟩

theorem hocon_noted (S : Std) (n : Nat) (ds : List (Bytes × Lit)) (ns : List Notes) (hne : ds ≠ []) (hn : depthEntries ds ≤ n)
    (h : DocOk S.parseDecimal ds) (hns : NotesOk ns ds) :
    parse (hocon S (n + 1)) (noted ns ds) = .ok [.obj (configFold (valueEntries S.parseDecimal ds))] := by
  obtain ⟨cs, x, h1, h2, h3, h4⟩ := many_noted S n ds hn h ns hns
  have h5 : parse (softHocon S (n + 1)) (noted ns ds) = .ok [.obj (configFold (valueEntries S.parseDecimal ds))] := by
    unfold softHocon
    refine parse_end_ok.2 ?_
    have h6 : Eats (many1 (softGrammar S (n + 1)).2) x (valueEntries S.parseDecimal ds) [] := by
      refine eats_many1.2 ⟨?_, h3, .uncommitted, fail_property_end⟩
      cases ds with
      | nil => exact absurd rfl hne
      | cons e ds => rw [valueEntries]; simp
    have hq : Quiet x := by
      rcases h4 with ⟨-, rfl⟩ | ⟨k', r, e, hk', rfl, -⟩
      · exact noHead_nil
      · exact pathText_quiet hk'
    rw [h1]
    exact Eats.skipLeft (p := spaceOrComment) (t1 := commentLines cs) (t2 := x) (rest := [])
      (q := config (softGrammar S (n + 1)).1 (softGrammar S (n + 1)).2)
      (eats_gap ⟨[], cs, blanks_nil, h2, rfl⟩ (by rw [List.append_nil]; exact hq))
      (.or_left (.or_left (h6.map (fun ps => [Value.obj (configFold ps)])).attempt))
  have h6 : Below (softHocon S (n + 1)) (hocon S (n + 1)) := inferInstance
  unfold parse at h5 ⊢
  rw [h6.eq]
  · exact h5
  · intro h7
    rw [h7] at h5
    cases h5

end OniComb.Hocon
