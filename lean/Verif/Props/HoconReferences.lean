import Verif.Props.HoconLayout
import Verif.Lemmas.HoconShape

/-!
# C97: references in documents of any layout, from the text to `get_value`
-/

namespace OniComb.Hocon
open OniComb OniComb.Hocon.Spec OniComb.Hocon.Spec.Layout
open OniComb.Uri (Bytes byte bytes)

variable {var : Bytes → Option Bytes} {doc : Value} {dec : Bytes → Option Decimal}

/-- What the grammar of layouts demands of a value. -/
private def strict : Rule := ⟨fun _ => True, fun _ => True, PathText, fun _ _ => False, fun _ _ => False⟩

private theorem strict_paths {v : Value} {q : Bytes} (hm : Mentions v q) (h : AllSound strict v) : PathText q := by
  induction hm with
  | ref => exact (allSound_ref.1 h).1
  | elem hv _ ih => exact ih (allSound_arr.1 h _ hv)
  | value hv _ ih => exact ih ((allSound_obj.1 h).2 _ hv).2
  | older _ ih => exact ih (allSound_link.1 h).1
  | newer _ ih => exact ih (allSound_link.1 h).2
  | part hv _ ih => exact ih ((allSound_enum.1 h).2.1 _ hv)

private theorem strict_plain {v : Value} (h : AllSound strict v)
    (hm : ∀ q, Demands v q → Missing doc q → ∃ s, var q = some s) : Plain var doc v :=
  plain_of (fun _ _ h => h) v h (fun _ hq => strict_paths hq h) (fun _ _ hp => (h _ hp).elim) hm

private theorem val_strict {v : Value} {t g r : Bytes} (h : Val dec v t g r) : AllSound strict v := by
  refine Val.rec
    (motive_1 := fun v t g r _ => AllSound strict v)
    (motive_2 := fun vs t x _ => ∀ v ∈ vs, AllSound strict v)
    (motive_3 := fun c es t x _ => ∀ e ∈ es, AllSound strict e.2)
    ?_ ?_ ?_ ?_ ?_ ?_ ?_ ?_ ?_ ?_ ?_ ?_ ?_ ?_ ?_ ?_ h
  iterate 7 (intros; intro u hu; cases hu; trivial)
  · intro p o g1 g2 g r hp h1 h2
    exact allSound_ref.2 ⟨hp, by simp⟩
  · intro vs g1 t g r h1 h ih
    exact allSound_arr.2 ih
  · intro ps es g1 t g r h1 h hk hg ih
    have := gathered_all hk ih fun c v hc hv => allSound_link.2 ⟨hc, allSound_remember hc hv⟩
    exact allSound_obj.2 ⟨(gathered_keys hk).1, fun e he => ⟨trivial, this e he⟩⟩
  · simp
  · intro v t g x hg h ih
    simpa using ih
  · intro v vs t g g1 t' x hg h1 h hs ih ihs
    exact List.forall_mem_cons.2 ⟨ih, ihs⟩
  · simp
  · intro c k kt g1 g2 t g s t' x b v es hk h1 hb h2 hg hs h hm ih ihm
    exact List.forall_mem_cons.2 ⟨ih, ihm⟩
  · intro c k kt g1 t g s t' x v es hk h1 hv hg hs h hm ih ihm
    exact List.forall_mem_cons.2 ⟨ih, ihm⟩

private theorem doc_strict {t : Bytes} {es : Entries} (h : Doc dec [.obj es] t) : AllSound strict (.obj es) := by
  cases h with
  | settings hg hne hk h =>
    refine allSound_obj.2 ⟨hk, fun e he => ⟨trivial, ?_⟩⟩
    obtain ⟨t, g, r, hv⟩ := members_val h e he
    exact val_strict hv
  | items hg h hb =>
    cases h with
    | cons hv hg h hs => exact val_strict h

/-- The newest definition of a key is one value. -/
private def Flat (v : Value) : Prop := ∀ p u, Part (.link p u) v → ¬ IsLink u

private theorem flat_remember {c v : Value} (hc : Flat c) (hv : Flat v ∧ ¬ IsLink v) : Flat (.link c (remember c v)) := by
  have hr : Flat (remember c v) ∧ ¬ IsLink (remember c v) := by
    cases v with
    | ref prev p o =>
      refine ⟨fun q u h => ?_, fun h => h⟩
      cases h with
      | refBefore h => exact hc q u h
    | _ => exact hv
  intro p u h
  cases h with
  | refl => exact hr.2
  | older h => exact hc p u h
  | newer h => exact hr.1 p u h

private theorem flat_obj {es : Entries} (h : ∀ e ∈ es, Flat e.2) : Flat (.obj es) := by
  intro p u hp
  cases hp with
  | value he hp => exact h _ he p u hp

private theorem val_flat {v : Value} {t g r : Bytes} (h : Val dec v t g r) : Flat v ∧ ¬ IsLink v := by
  refine Val.rec
    (motive_1 := fun v t g r _ => Flat v ∧ ¬ IsLink v)
    (motive_2 := fun vs t x _ => ∀ v ∈ vs, Flat v ∧ ¬ IsLink v)
    (motive_3 := fun c es t x _ => ∀ e ∈ es, Flat e.2 ∧ ¬ IsLink e.2)
    ?_ ?_ ?_ ?_ ?_ ?_ ?_ ?_ ?_ ?_ ?_ ?_ ?_ ?_ ?_ ?_ h
  iterate 8 (intros; exact ⟨fun p u h => (by cases h), fun h => h⟩)
  · intro vs g1 t g r h1 h ih
    exact ⟨fun p u hp => by cases hp with | elem hv hp => exact (ih _ hv).1 p u hp, fun h => h⟩
  · intro ps es g1 t g r h1 h hk hg ih
    exact ⟨flat_obj (gathered_both hk ih (fun _ h => h.1) fun c v hc hv => flat_remember hc hv), fun h => h⟩
  · simp
  · intro v t g x hg h ih
    simpa using ih
  · intro v vs t g g1 t' x hg h1 h hs ih ihs
    exact List.forall_mem_cons.2 ⟨ih, ihs⟩
  · simp
  · intro c k kt g1 g2 t g s t' x b v es hk h1 hb h2 hg hs h hm ih ihm
    exact List.forall_mem_cons.2 ⟨ih, ihm⟩
  · intro c k kt g1 t g s t' x v es hk h1 hv hg hs h hm ih ihm
    exact List.forall_mem_cons.2 ⟨ih, ihm⟩

private theorem doc_flat {t : Bytes} {es : Entries} (h : Doc dec [.obj es] t) : Flat (.obj es) := by
  cases h with
  | settings hg hne hk h =>
    refine flat_obj fun e he => ?_
    obtain ⟨t, g, r, hv⟩ := members_val h e he
    exact (val_flat hv).1
  | items hg h hb =>
    cases h with
    | cons hv hg h hs => exact (val_flat h).1

private theorem flat_latest {v : Value} (h : Flat v) : Flat (latest v) ∧ ¬ IsLink (latest v) := by
  cases v with
  | link p u => exact ⟨fun q w hq => h q w (.newer hq), h p u .refl⟩
  | _ => exact ⟨h, fun h => h⟩

private theorem flat_descend {ss : List Bytes} : ∀ {v x : Value}, Flat v → ¬ IsLink v → descend ss v = some x → ¬ IsLink x := by
  induction ss with
  | nil => intro v x _ hl h; cases h; exact hl
  | cons s ss ih =>
    intro v x hv _ h
    cases v with
    | obj es =>
      rw [descend] at h
      obtain ⟨y, h1, h2⟩ := Option.bind_eq_some_iff.1 h
      have hy : Flat y := fun p u hp => hv p u (.value (get_mem h1) hp)
      exact ih (flat_latest hy).1 (flat_latest hy).2 h2
    | _ => cases h

/-- References from the text to the answer: if the references of a document in any layout do not go round in circles
(`rank` falls along them) and each of them leads to something, has a variable of its name, or is optional with an
earlier value of the key, then the document is loaded, what is loaded has no references, and `get_value` finds at every
path that is written: the constant that is written there; for a reference to something in the document, what it finds
there; for another reference, the value of the variable; for an optional reference without either, the earlier value. 
(Missing: dotted keys, and settings outside braces that come again.) -/
theorem c97_references_partial (S : Std) (w : World) (t : Bytes) (es : Entries) (h : Doc S.parseDecimal [.obj es] t)
    (hd : ∀ e ∈ es, byte '.' ∉ e.1)
    (hfound : ∀ v q, (v = .obj es ∨ ∃ p, Leads (.obj es) p v) → Demands v q → Missing (.obj es) q → ∃ s, w.var q = some s)
    (rank : Bytes → Nat) (bound : Nat) (hb : ∀ q, Mentions (.obj es) q → rank q < bound)
    (hrank : ∀ p x q, Leads (.obj es) p x → Mentions x q → rank q < rank p) :
    ∃ v N, (∀ n, N ≤ n → parseDocument S w n t = .ok (some v)) ∧ (∀ q, ¬ Mentions v q) ∧
      (∀ p x, Leads (.obj es) p x → Constant x → getValue v p = .ok (some x)) ∧
      (∀ p q prev o z, Leads (.obj es) p (.ref prev q o) → Leads (.obj es) q z →
        ∃ y, getValue v p = .ok (some y) ∧ getValue v q = .ok (some y)) ∧
      (∀ p q prev o s, Leads (.obj es) p (.ref prev q o) → Missing (.obj es) q → w.var q = some s →
        getValue v p = .ok (some (.str s))) ∧
      (∀ p q z, Leads (.obj es) p (.ref (some z) q true) → Missing (.obj es) q → w.var q = none → Settled z → ¬ IsLink z →
        getValue v p = .ok (some z)) := by
  have hflat : ∀ p x, Leads (.obj es) p x → ¬ IsLink x := fun p x hx => by
    obtain ⟨ss, -, -, -, hd⟩ := hx
    exact flat_descend (doc_flat h) (fun h => h) hd
  have hp : Plain w.var (.obj es) (.obj es) := strict_plain (doc_strict h) fun q => hfound _ q (.inl rfl)
  obtain ⟨v, -, -, hr, hf⟩ := c59_terminates_partial (w.env S 0) (.obj es) hp hfound rank bound hb hrank
  obtain ⟨N, hN⟩ := c97_load_partial S w t es v h hd hr
  refine ⟨v, N, hN, hf, fun p x hx hc => ?_, fun p q prev o z h1 h2 => ?_, fun p q prev o s h1 h2 h3 => ?_,
    fun p q z h1 h2 h3 h4 h5 => ?_⟩
  · obtain ⟨ss, a1, a2, rfl, a4⟩ := hx
    obtain ⟨y, a5, a6⟩ := resolved_descend hflat hr a4
    have : y = x := c59_unique w.var _ x y x a6 (.constant hc)
    subst this
    exact getValue_leads ⟨ss, a1, a2, rfl, a5⟩
  · obtain ⟨y, h3, h4⟩ := c59_same_value w.var _ v z p q prev o hflat hr h1 h2
    exact ⟨y, getValue_leads h3, getValue_leads h4⟩
  · obtain ⟨ss, a1, a2, rfl, a4⟩ := h1
    obtain ⟨y, a5, a6⟩ := resolved_descend hflat hr a4
    have : y = .str s := c59_unique w.var _ _ y _ a6 (.variable h2 h3)
    subst this
    exact getValue_leads ⟨ss, a1, a2, rfl, a5⟩
  · obtain ⟨ss, a1, a2, rfl, a4⟩ := h1
    obtain ⟨y, a5, a6⟩ := resolved_descend hflat hr a4
    have : y = z := c59_unique w.var _ _ y _ a6 (.fallback h2 h3 h4 h5)
    subst this
    exact getValue_leads ⟨ss, a1, a2, rfl, a5⟩

/-- What the text of the example denotes. -/
def referenceEntries : Entries := [(bytes "a", .ref none (bytes "b") false), (bytes "b", .ref none (bytes "H") false)]

theorem reference_doc : Doc decDigits.parseDecimal [.obj referenceEntries] (bytes "a=${b}\nb=${ H }") := by
  have ha : Segment (bytes "a") := ⟨by decide, by decide⟩
  have hb : Segment (bytes "b") := ⟨by decide, by decide⟩
  have hh : Segment (bytes "H") := ⟨by decide, by decide⟩
  have h1 := Members.assign (dec := decDigits.parseDecimal) (c := false) (x := []) (s := []) (b := byte '=') (g1 := []) (g2 := []) (g := [])
    (.inl ⟨pathText_one hb, rfl⟩) gap_nil (.inl rfl) gap_nil gap_nil (.inl rfl)
    (.ref (p := [bytes "H"]) (o := false) (pathText_one hh) gap_space gap_space) .nil
  have h2 := Members.assign (c := false) (x := []) (s := []) (b := byte '=') (g1 := []) (g2 := [])
    (.inl ⟨pathText_one ha, rfl⟩) gap_nil (.inl rfl) gap_nil gap_line (.inl rfl)
    (.ref (p := [bytes "b"]) (o := false) (g1 := []) (g2 := []) (pathText_one hb) gap_nil gap_nil) h1
  exact .settings (g := []) gap_nil (by simp [referenceEntries]) (by decide) h2

private theorem reference_leads {p : Bytes} {x : Value} (h : Leads (.obj referenceEntries) p x) :
    (p = bytes "a" ∧ x = .ref none (bytes "b") false) ∨ (p = bytes "b" ∧ x = .ref none (bytes "H") false) := by
  obtain ⟨ss, h1, -, rfl, h2⟩ := h
  obtain ⟨s, ss, rfl⟩ : ∃ s ss', ss = s :: ss' := List.exists_cons_of_ne_nil h1
  rw [descend] at h2
  obtain ⟨y, h3, h4⟩ := Option.bind_eq_some_iff.1 h2
  have key : ∀ q, y = .ref none q false → ss = [] ∧ x = .ref none q false := by
    rintro q rfl
    cases ss with
    | nil => exact ⟨rfl, (Option.some.inj h4).symm⟩
    | cons s ss => cases h4
  rw [referenceEntries, get] at h3
  split at h3
  · rename_i hk
    obtain ⟨rfl, rfl⟩ := key _ (Option.some.inj h3).symm
    exact .inl ⟨by rw [← (show bytes "a" = s from by simpa using hk)]; rfl, rfl⟩
  · rw [get] at h3
    split at h3
    · rename_i hk
      obtain ⟨rfl, rfl⟩ := key _ (Option.some.inj h3).symm
      exact .inr ⟨by rw [← (show bytes "b" = s from by simpa using hk)]; rfl, rfl⟩
    · cases h3

/-- `a` and `b` are the value of the variable `H`. -/
example (w : World) (s : Bytes) (hw : w.var (bytes "H") = some s) :
    ∃ v N, (∀ n, N ≤ n → parseDocument decDigits w n (bytes "a=${b}\nb=${ H }") = .ok (some v)) ∧
      getValue v (bytes "a") = .ok (some (.str s)) ∧ getValue v (bytes "b") = .ok (some (.str s)) := by
  have hl : Leads (.obj referenceEntries) (bytes "b") (.ref none (bytes "H") false) :=
    ⟨[bytes "b"], by simp, by simp [Segment]; decide, rfl, rfl⟩
  have hm : Missing (.obj referenceEntries) (bytes "H") := ⟨[bytes "H"], by simp, by simp [Segment]; decide, rfl, rfl⟩
  have hb : ∀ q, Mentions (.obj referenceEntries) q → q = bytes "b" ∨ q = bytes "H" := by
    intro q hq
    cases hq with
    | value he h =>
      simp only [referenceEntries, List.mem_cons, List.not_mem_nil, or_false] at he
      rcases he with rfl | rfl
      · cases h; exact .inl rfl
      · cases h; exact .inr rfl
  obtain ⟨v, N, h1, -, -, h2, h3, -⟩ := c97_references_partial decDigits w _ _ reference_doc (by decide) (by
    intro v q hv hq hmi
    have hq := demands_mentions hq
    have : q = bytes "b" ∨ q = bytes "H" := by
      rcases hv with rfl | ⟨p, hp⟩
      · exact hb q hq
      · rcases reference_leads hp with ⟨-, rfl⟩ | ⟨-, rfl⟩ <;> cases hq
        · exact .inl rfl
        · exact .inr rfl
    rcases this with rfl | rfl
    · have h1 := getValue_leads hl
      rw [getValue_missing hmi] at h1
      cases h1
    · exact ⟨s, hw⟩) (fun p => if p = bytes "a" then 2 else if p = bytes "b" then 1 else 0) 2 (by
    intro q hq
    rcases hb q hq with rfl | rfl <;> decide) (by
    intro p x q hp hq
    rcases reference_leads hp with ⟨rfl, rfl⟩ | ⟨rfl, rfl⟩ <;> cases hq <;> decide)
  have h4 := h3 _ _ _ _ _ hl hm hw
  obtain ⟨y, h5, h6⟩ := h2 (bytes "a") (bytes "b") none false _ ⟨[bytes "a"], by simp, by simp [Segment]; decide, rfl, rfl⟩ hl
  rw [h4] at h6
  cases h6
  exact ⟨v, N, h1, h5, h4⟩

end OniComb.Hocon
