import Verif.Props.HoconReferences
import Verif.Lemmas.HoconMeaning
import Verif.Lemmas.HoconEq

/-!
# C87, C59: what the values of a document stand for, and what `get_value` answers for it
-/

namespace OniComb.Hocon
open OniComb OniComb.Hocon.Spec
open OniComb.Uri (Bytes byte bytes)

/-! ## C119 The shape of parsed documents -/

/-- What the parser returns for any text is a document: one object of settings, or includes, or objects and arrays, with
each key once, no empty key and no empty string, paths in references, no includes inside of values, and
concatenations that begin with a string. -/
theorem c119_document (S : Std) (n : Nat) (t : Bytes) (vs : List Value) (h : parse (hocon S n) t = .ok vs) : Document vs :=
  parse_ok_yields (shape_hocon S n) h

/-- No text denotes a document with an empty string anywhere. -/
theorem c119_empty_string_violated (S : Std) (n : Nat) (t : Bytes) (vs : List Value) (v : Value) (hv : v ∈ vs)
    (h : parse (hocon S n) t = .ok vs) : ¬ Part (.str []) v := by
  intro hp
  cases c119_document S n t vs h with
  | settings _ hm => cases List.mem_singleton.1 hv; exact (hm _ hp).1 rfl
  | includes _ hm =>
    obtain ⟨m, p, -, -, rfl⟩ := hm v hv
    cases hp
  | blocks hm => exact ((hm v hv).2 _ hp).1 rfl

theorem document_made {vs : List Value} (h : Document vs) (hi : ∀ v ∈ vs, ¬ IsInclude v) : ∀ v ∈ vs, Made v := by
  cases h with
  | settings _ hm => intro v hv; cases List.mem_singleton.1 hv; exact hm
  | includes hne hm =>
    obtain ⟨v, vs, rfl⟩ := List.exists_cons_of_ne_nil hne
    exact absurd (hm v (by simp)) (hi v (by simp))
  | blocks hm => exact fun v hv => (hm v hv).2

/-- The values of the example. -/
def dottedReference : List Value := [.obj [(bytes "a.b", int 1), (bytes "c.d", .ref none (bytes "a.b") false)]]

theorem dottedReference_parse : parse (hocon decDigits 3) (bytes "a.b=1\nc.d=${a.b}") = .ok dottedReference :=
  okIs_eq (by decide +kernel)

/-- Settings. -/
example : Document dottedReference := c119_document _ _ _ _ dottedReference_parse

/-- An include. -/
example : Document [.incl (bytes "file") (bytes "\"x\"")] :=
  c119_document decDigits 3 (bytes "include file(\"x\")") _ (okIs_eq (by decide +kernel))

/-- Objects and arrays. -/
example : Document [.arr [int 1], .obj []] := c119_document decDigits 3 (bytes "[1]\n{}") _ (okIs_eq (by decide +kernel))

/-! ## C87 Several values, dotted keys and includes -/

/-- The first pass over any parsed document, whose includes can be loaded, gives what its values stand for. -/
theorem c87_meaning (S : Std) (w : World) (hw : ∀ p s, w.var p = some s → IsText s) (n : Nat) (t : Bytes) (vs : List Value)
    (h : parse (hocon S n) t = .ok vs) (hne : vs ≠ [])
    (hi : ∀ m f, .incl m f ∈ vs → ∃ x, loadFromFile S w n f = .ok (some x)) :
    ∃ doc, resolveStage0 (w.env S n) vs = .ok doc ∧ Meaning (fun f x => loadFromFile S w n f = .ok (some x)) vs doc := by
  have hload : (fun f x => (w.env S n).load f = .ok x) = fun f x => loadFromFile S w n f = .ok (some x) := by
    funext f x
    refine propext ⟨fun h => ?_, fun h => ?_⟩
    · obtain ⟨r, h1, h2⟩ := bind_eq_ok.1 h
      cases r with
      | none => cases h2
      | some y => cases h2; exact h1
    · show (loadFromFile S w n f).bind _ = _
      rw [h]
      rfl
  have hload' : ∀ f x, (w.env S n).load f = .ok x ↔ loadFromFile S w n f = .ok (some x) :=
    fun f x => iff_of_eq (congrFun (congrFun hload f) x)
  have hwf : ∀ v ∈ vs, Wf v := fun v hv => allSound_wf v (parse_ok_yields (yields_hocon S n) h v hv)
  have hloads : ∀ v ∈ vs, Loads (w.env S n) v := by
    intro v hv m f hp
    have : v = .incl m f := by
      cases c119_document S n t vs h with
      | settings _ hm => cases List.mem_singleton.1 hv; exact (hm _ hp).elim
      | includes _ hm =>
        obtain ⟨m', p, -, -, rfl⟩ := hm v hv
        cases hp
        rfl
      | blocks hm => exact ((hm v hv).2 _ hp).elim
    subst this
    obtain ⟨x, hx⟩ := hi m f hv
    exact ⟨x, (hload' f x).2 hx⟩
  obtain ⟨doc, hd⟩ := stage0_loads hne hloads
  refine ⟨doc, hd, hload ▸ stage0_meaning (fun f v hv => ?_) hwf hd⟩
  exact allSound_wf v (clean_loadFromFile S w hw n f v ((hload' f v).1 hv))

/-- `a.b=1`, `c.d=${a.b}`. -/
example (w : World) (hw : ∀ p s, w.var p = some s → IsText s) : ∃ doc, resolveStage0 (w.env decDigits 3) dottedReference = .ok doc ∧
    Meaning (fun f x => loadFromFile decDigits w 3 f = .ok (some x)) dottedReference doc :=
  c87_meaning decDigits w hw 3 _ _ dottedReference_parse (by simp [dottedReference]) (by simp [dottedReference])

/-! ## C59 References in any document without includes -/

/-- What is so for the document of parsed values. -/
private def formed : Rule := ⟨fun _ => True, fun _ => True, RefText, fun _ _ => False, fun _ us => ∃ s, s ≠ [] ∧ .str s ∈ us⟩

private theorem part_trans {x u v : Value} (h : Part x u) (h' : Part u v) : Part x v := by
  induction h' with
  | refl => exact h
  | elem hv _ ih => exact .elem hv ih
  | value hv _ ih => exact .value hv ih
  | piece hv _ ih => exact .piece hv ih
  | pieceBefore _ ih => exact .pieceBefore ih
  | refBefore _ ih => exact .refBefore ih
  | older _ ih => exact .older ih
  | newer _ ih => exact .newer ih

private theorem part_latest {v : Value} : Part (latest v) v := by
  cases v with
  | link p v => exact .newer .refl
  | _ => exact .refl

private theorem descend_part {ss : List Bytes} : ∀ {v x : Value}, descend ss v = some x → Part x v := by
  induction ss with
  | nil => intro v x h; cases h; exact .refl
  | cons k ss ih =>
    intro v x h
    cases v with
    | obj es =>
      obtain ⟨y, h1, h2⟩ := Option.bind_eq_some_iff.1 h
      exact .value (get_mem h1) (part_trans (ih h2) part_latest)
    | _ => cases h

private theorem formed_of {v : Value} (h : Made v) : AllSound formed v := by
  intro u hu
  have hs := h u hu
  cases u with
  | obj es => exact ⟨hs.1, fun _ _ => trivial⟩
  | str s => trivial
  | ref prev p o => exact hs
  | incl m f => exact hs
  | enumeration prev us =>
    obtain ⟨-, s, ws, rfl, -⟩ := hs
    exact ⟨s, (h (.str s) (part_trans (.piece (by simp) .refl) hu)).1, by simp⟩
  | _ => trivial

private theorem mentions_part {v : Value} {q : Bytes} (h : Mentions v q) : ∃ prev o, Part (.ref prev q o) v := by
  induction h with
  | ref => exact ⟨_, _, .refl⟩
  | elem hv _ ih => obtain ⟨a, b, h⟩ := ih; exact ⟨a, b, .elem hv h⟩
  | value hv _ ih => obtain ⟨a, b, h⟩ := ih; exact ⟨a, b, .value hv h⟩
  | older _ ih => obtain ⟨a, b, h⟩ := ih; exact ⟨a, b, .older h⟩
  | newer _ ih => obtain ⟨a, b, h⟩ := ih; exact ⟨a, b, .newer h⟩
  | part hv _ ih => obtain ⟨a, b, h⟩ := ih; exact ⟨a, b, .piece hv h⟩

/-- Any text that is parsed and has no includes, with dotted keys, repeated keys, several values at top level and
concatenations: let `doc` be what its values stand for (`c87_meaning`).  If no reference ends with a dot, the parts of
concatenations stand for strings, the references do not go round in circles (`rank` falls along them) and each of them
leads to something, has a variable of its name, or is optional with an earlier value of the key, then the text is loaded,
and `get_value` answers for `doc`.  (Missing: includes.) -/
theorem c59_document_partial (S : Std) (w : World) (n : Nat) (t : Bytes) (vs : List Value) (doc : Value)
    (h : parse (hocon S n) t = .ok vs) (hi : ∀ v ∈ vs, ¬ IsInclude v) (hd : resolveStage0 (w.env S n) vs = .ok doc)
    (hdot : ∀ q, Mentions doc q → ¬ [byte '.'] <:+ q)
    (hstr : ∀ prev us u x, Part (.enumeration prev us) doc → u ∈ us → Resolved w.var doc u x → ∃ s, x = .str s)
    (hfound : ∀ v q, (v = doc ∨ ∃ p, Leads doc p v) → Demands v q → Missing doc q → ∃ s, w.var q = some s)
    (rank : Bytes → Nat) (bound : Nat) (hb : ∀ q, Mentions doc q → rank q < bound)
    (hrank : ∀ p x q, Leads doc p x → Mentions x q → rank q < rank p) :
    ∃ v N, (∀ m, N ≤ m → parseDocument S w m t = .ok (some v)) ∧ Answers w.var doc v := by
  have hm := document_made (c119_document S n t vs h) hi
  have hf : AllSound formed doc := clean_stage0 (P := formed) (fun _ _ _ _ => trivial) (fun _ _ _ hn => False.elim hn)
    (fun v hv => formed_of (hm v hv)) hd
  have hflat : Flat doc := by
    have hloads : ∀ v ∈ vs, Loads ⟨w.var, fun _ => .panic⟩ v := fun v hv m f hp => (hm v hv _ hp).elim
    obtain ⟨doc', hd'⟩ := stage0_loads (by rintro rfl; cases hd) hloads
    have := stage0_sub (env := ⟨w.var, fun _ => .panic⟩) (env' := w.env S n) (fun _ _ h => by cases h) hd'
    rw [hd] at this
    cases this
    exact flat_stage0 (fun _ _ h => by cases h) (parse_ok_yields (flat_hocon S n) h) hd'
  have hplain : Plain w.var doc doc := by
    refine plain_of (fun _ _ h => h) doc hf (fun q hq => ?_) (fun prev us hp => ⟨fun u hu x => hstr prev us u x hp hu, hf _ hp⟩)
      (fun q => hfound doc q (.inl rfl))
    obtain ⟨prev, o, hp⟩ := mentions_part hq
    rcases (hf _ hp : RefText q) with h1 | ⟨p, -, rfl⟩
    · exact h1
    · exact absurd (List.suffix_append p [byte '.']) (hdot _ hq)
  obtain ⟨v, -, -, hr, -⟩ := c59_terminates_partial (w.env S n) doc hplain hfound rank bound hb hrank
  obtain ⟨N, hN⟩ := load_meaning h hd hr
  exact ⟨v, N, hN, answers_of (fun p x ⟨ss, h1, _, _, h2⟩ => flat_descend h1 hflat h2) hr⟩

/-- What the values of the example stand for. -/
def dottedDoc : Value :=
  .obj [(bytes "a", .obj [(bytes "b", int 1)]), (bytes "c", .obj [(bytes "d", .ref none (bytes "a.b") false)])]

theorem dottedDoc_stage0 (S : Std) (w : World) (n : Nat) : resolveStage0 (w.env S n) dottedReference = .ok dottedDoc :=
  stage0_sub (env := ⟨fun _ => none, fun _ => .panic⟩) (env' := w.env S n) (fun _ _ h => by cases h)
    (valueIs_eq (by decide +kernel))

private theorem dottedDoc_part {v : Value} (h : Part v dottedDoc) : v = dottedDoc ∨ v = .obj [(bytes "b", int 1)] ∨ v = int 1 ∨
    v = .obj [(bytes "d", .ref none (bytes "a.b") false)] ∨ v = .ref none (bytes "a.b") false := by
  cases h with
  | refl => exact .inl rfl
  | value he h =>
    simp only [List.mem_cons, List.not_mem_nil, or_false] at he
    rcases he with rfl | rfl
    · cases h with
      | refl => simp
      | value he h =>
        simp only [List.mem_cons, List.not_mem_nil, or_false] at he
        subst he
        cases h
        simp
    · cases h with
      | refl => simp
      | value he h =>
        simp only [List.mem_cons, List.not_mem_nil, or_false] at he
        subst he
        cases h
        simp

private theorem dottedDoc_mentions {q : Bytes} (h : Mentions dottedDoc q) : q = bytes "a.b" := by
  obtain ⟨prev, o, h⟩ := mentions_part h
  rcases dottedDoc_part h with h | h | h | h | h <;> cases h
  rfl

/-- `c.d` is the value of `a.b`. -/
example (w : World) : ∃ v N, (∀ n, N ≤ n → parseDocument decDigits w n (bytes "a.b=1\nc.d=${a.b}") = .ok (some v)) ∧
    getValue v (bytes "c.d") = .ok (some (int 1)) ∧ getValue v (bytes "a.c") = .ok none := by
  have hl : Leads dottedDoc (bytes "a.b") (int 1) := ⟨[bytes "a", bytes "b"], by simp, by simp [Segment]; decide, rfl, rfl⟩
  have hpart : ∀ {p x}, Leads dottedDoc p x → Part x dottedDoc := fun ⟨ss, _, _, _, h⟩ => descend_part h
  have hment : ∀ {p x q}, Leads dottedDoc p x → Mentions x q → q = bytes "a.b" := by
    intro p x q hx hq
    obtain ⟨prev, o, h⟩ := mentions_part hq
    rcases dottedDoc_part (part_trans h (hpart hx)) with h | h | h | h | h <;> cases h
    rfl
  obtain ⟨v, N, h1, h2⟩ := c59_document_partial decDigits w 3 _ _ dottedDoc dottedReference_parse
    (by simp [dottedReference, IsInclude]) (dottedDoc_stage0 _ w _)
    (by intro q hq; cases dottedDoc_mentions hq; decide)
    (by intro prev us u x hp; rcases dottedDoc_part hp with h | h | h | h | h <;> cases h)
    (by
      intro v q hv hq hmi
      have hq := demands_mentions hq
      have : q = bytes "a.b" := by
        rcases hv with rfl | ⟨p, hp⟩
        · exact dottedDoc_mentions hq
        · exact hment hp hq
      subst this
      have h1 := getValue_leads hl
      rw [getValue_missing hmi] at h1
      cases h1)
    (fun q => if q = bytes "a.b" then 0 else 1) 1
    (by intro q hq; cases dottedDoc_mentions hq; decide)
    (by
      intro p x q hx hq
      cases hment hx hq
      by_cases hp : p = bytes "a.b"
      · subst hp
        have h1 := getValue_leads hl
        rw [getValue_leads hx] at h1
        cases h1
        cases hq
      · simp [hp])
  refine ⟨v, N, h1, ?_, ?_⟩
  · have h3 := (h2.target [bytes "c", bytes "d"] [bytes "a", bytes "b"] [] none false (int 1) ⟨by simp, by simp [Segment]; decide⟩
      ⟨by simp, by simp [Segment]; decide⟩ (by simp) rfl rfl).2
    exact h3.trans (h2.constant _ _ hl trivial)
  · refine h2.missing [bytes "a", bytes "c"] ⟨by simp, by simp [Segment]; decide⟩ rfl ?_
    intro ps qs h hne prev q o hd
    match ps, h with
    | [], h => cases hd
    | [_], h => cases h; cases hd
    | _ :: _ :: _, h => simp at h; exact hne h.2.2.2

end OniComb.Hocon
