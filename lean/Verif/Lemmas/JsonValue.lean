import Verif.Lemmas.JsonString

/-! # Helper lemmas: arrays, objects and values of the JSON examples -/

set_option linter.unusedSectionVars false

namespace OniComb

section
variable {I A B C D : Type}

theorem repTurn_map {p : Parser I A} {q : Parser I B} (f : B → C) (stop : Bound) (st : LoopState I A) :
    repTurn p (some (map q f)) stop st = repTurn p (some q) stop st := by
  unfold repTurn map
  cases h : q st.cur <;> simp [h]

theorem repLoop_map {p : Parser I A} {q : Parser I B} (f : B → C) (stop : Bound) (k : Nat) (st : LoopState I A) :
    repLoop p (some (map q f)) stop k st = repLoop p (some q) stop k st := by
  induction k generalizing st with
  | zero => rfl
  | succ k ih =>
    unfold repLoop
    rw [repTurn_map]
    cases repTurn p (some q) stop st <;> simp [ih]

/-- What a separator returns does not matter. -/
theorem many0Sep_map {p : Parser I A} {q : Parser I B} (f : B → C) : many0Sep p (map q f) = many0Sep p q := by
  funext s
  unfold many0Sep repeatSep
  simp only [repLoop_map]

theorem skipLeft_skipRight {a : Parser I A} {b : Parser I B} {p : Parser I C} :
    skipLeft (skipRight a b) p = skipLeft (andThen a b) p := by
  funext s
  unfold skipLeft skipRight andThen
  cases h : a s with
  | success x n => simp only; cases h' : b (s.advanceBy n) <;> rfl
  | _ => simp only

theorem skipRight_skipLeft {a : Parser I A} {b : Parser I B} {p : Parser I C} :
    skipRight p (skipLeft a b) = skipRight p (andThen a b) := by
  funext s
  unfold skipLeft skipRight andThen
  cases h0 : p s with
  | success y m =>
    simp only
    cases h : a (s.advanceBy m) with
    | success x n => simp only; cases h' : b ((s.advanceBy m).advanceBy n) <;> rfl
    | _ => simp only
  | _ => simp only

theorem skips_eq {a : Parser I A} {b : Parser I B} {c : Parser I C} :
    skipRight (skipLeft a b) c = map (andThen (andThen a b) c) (fun x => x.1.2) := by
  funext s
  unfold skipLeft skipRight andThen map
  cases h : a s with
  | success x n =>
    cases h' : b (s.advanceBy n) with
    | success y m =>
      cases h'' : c (s.advanceBy (n + m)) <;> simp [h, h', h''] <;> rfl
    | _ => simp [h, h']
  | _ => simp [h]

end

namespace Json
open OniComb.Json.Spec

section
variable {I F : Type} [DecidableEq I] [Element I] {K : Kind I F}

/-- The two ways of writing `array` are the same parser. -/
theorem arrayChar_eq : arrayChar K = arrayByte K := by
  funext v
  unfold arrayChar arrayByte surround
  rw [skipLeft_skipRight, skipRight_skipLeft, skips_eq, many0Sep_map]

end

section
variable {I F A : Type} [DecidableEq I] [Element I] {K : Kind I F} [L : Lawful K]
variable {t r rest : List I} {p : Parser I A} [Good p]

/-! ### Lists in brackets -/

/-- The separator. -/
abbrev comma (K : Kind I F) : Parser I ((Unit × I) × Unit) := andThen (andThen (space K) (elm (K.lit ','))) (space K)

/-- A list in brackets. -/
abbrev listOf (K : Kind I F) (o c : Char) (p : Parser I A) : Parser I (List A) :=
  surround (andThen (elm (K.lit o)) (space K)) (many0Sep p (comma K)) (andThen (space K) (elm (K.lit c)))

omit L in
theorem sound_comma {v : (Unit × I) × Unit} (h : Eats (comma K) t v rest) :
    ∃ a b, t = a ++ K.lit ',' :: b ∧ Ws K a ∧ Ws K b := by
  obtain ⟨⟨x, y⟩, z⟩ := v
  obtain ⟨t1, t2, rfl, h1, h2⟩ := eats_andThen.1 h
  obtain ⟨t3, t4, rfl, h3, h4⟩ := eats_andThen.1 h1
  obtain ⟨rfl, -⟩ := eats_elm.1 h4
  exact ⟨t3, t2, by simp, (eats_space.1 h3).1, (eats_space.1 h2).1⟩

theorem comma_eats {b : List I} (hb : Ws K b) (hr : NoHead (WsB K) rest) :
    Eats (comma K) (K.lit ',' :: b) (((), K.lit ','), ()) rest := by
  refine Eats.andThen (t1 := [K.lit ',']) (t2 := b) ?_ (eats_space.2 ⟨hb, hr⟩)
  exact Eats.andThen (t1 := []) (t2 := [K.lit ',']) (eats_space_nil lit_noWs) (eats_elm.2 ⟨rfl, rfl⟩)

theorem fail_comma {c : Char} (hc : c ∈ [']', '}']) : ∃ s, Fail (comma K) (K.lit c :: r) s := by
  have h1 : NoHead (WsB K) (K.lit c :: r) := by
    simp only [List.mem_cons, List.not_mem_nil, or_false] at hc
    rcases hc with rfl | rfl <;> exact lit_noWs
  have h2 : ∀ r', K.lit c :: r ≠ K.lit ',' :: r' := by
    intro r' e
    injection e with e
    simp only [List.mem_cons, List.not_mem_nil, or_false] at hc
    rcases hc with rfl | rfl <;> simp [lit_eq] at e
  exact ⟨.uncommitted, Fail.andThen (Eats.andThen_fail (v := ()) (t1 := []) (eats_space_nil h1) (fail_elm.2 ⟨rfl, h2⟩))⟩

/-- The inside of a non-empty list, with white space before the items; the items take white space after
them in. -/
inductive Body (K : Kind I F) (P : A → List I → Prop) : List A → List I → Prop where
  | one {v : A} {a t : List I} : Ws K a → P v t → Body K P [v] (a ++ t)
  | trailing {v : A} {a t b c : List I} : Ws K a → P v t → Ws K b → Ws K c → Body K P [v] (a ++ (t ++ (b ++ K.lit ',' :: c)))
  | cons {v : A} {vs : List A} {a t b r : List I} : Ws K a → P v t → Ws K b → Body K P vs r →
      Body K P (v :: vs) (a ++ (t ++ (b ++ K.lit ',' :: r)))

omit L [DecidableEq I] [Element I] in
theorem Spec.Ws.append {a b : List I} (ha : Ws K a) (hb : Ws K b) : Ws K (a ++ b) := by
  intro x hx
  rcases List.mem_append.1 hx with h | h
  · exact ha x h
  · exact hb x h

omit L [DecidableEq I] [Element I] in
theorem Body.pad {P : A → List I → Prop} {vs : List A} {a : List I} (h : Body K P vs t) (ha : Ws K a) :
    Body K P vs (a ++ t) := by
  cases h with
  | one h1 h2 => rw [← List.append_assoc]; exact .one (ha.append h1) h2
  | trailing h1 h2 h3 h4 => rw [← List.append_assoc]; exact .trailing (ha.append h1) h2 h3 h4
  | cons h1 h2 h3 h4 => rw [← List.append_assoc]; exact .cons (ha.append h1) h2 h3 h4

omit L in
theorem body_sepMany {P : A → List I → Prop} (hP : ∀ t v rest, Eats p t v rest → P v t) {t2 : List I} {ws : List A}
    {r3 : List I} (h : SepMany p (comma K) t2 ws r3) :
    ∀ t3 : List I, (t3 = [] ∨ ∃ a b, t3 = a ++ K.lit ',' :: b ∧ Ws K a ∧ Ws K b) → ∀ v t1, P v t1 →
      Body K P (v :: ws) (t1 ++ (t2 ++ t3)) := by
  induction h with
  | nil r3 =>
    rintro t3 (rfl | ⟨a, b, rfl, ha, hb⟩) v t1 hv
    · simpa using Body.one (a := []) ws_nil hv
    · simpa using Body.trailing (a := []) ws_nil hv ha hb
  | @cons s t t' r3 b v' vs h1 h2 _ ih =>
    intro t3 ht3 v t1 hv
    obtain ⟨a, b', rfl, ha, hb⟩ := sound_comma h1
    have := (ih t3 ht3 v' t (hP _ _ _ h2)).pad hb
    have := Body.cons (a := []) ws_nil hv ha this
    simpa using this

theorem sound_listOf {P : A → List I → Prop} (hP : ∀ t v rest, Eats p t v rest → P v t) {o c : Char} {vs : List A}
    (h : Eats (listOf K o c p) t vs rest) :
    (vs = [] ∧ ∃ w, Ws K w ∧ t = K.lit o :: (w ++ [K.lit c])) ∨
      ∃ u b, Body K P vs u ∧ Ws K b ∧ t = K.lit o :: (u ++ (b ++ [K.lit c])) := by
  unfold listOf surround at h
  obtain ⟨t1, t2, ⟨x, y⟩, rfl, h1, h2⟩ := eats_skipLeft.1 h
  obtain ⟨t3, t4, rfl, h3, h4⟩ := eats_andThen.1 h1
  obtain ⟨rfl, -⟩ := eats_elm.1 h3
  obtain ⟨t5, t6, ⟨x', y'⟩, rfl, h5, h6⟩ := eats_skipRight.1 h2
  obtain ⟨t7, t8, rfl, h7, h8⟩ := eats_andThen.1 h6
  obtain ⟨rfl, -⟩ := eats_elm.1 h8
  have w1 := (eats_space.1 h4).1
  have w2 := (eats_space.1 h7).1
  rcases eats_many0Sep.1 h5 with ⟨rfl, rfl, -⟩ | h5
  · exact .inl ⟨rfl, t4 ++ t7, w1.append w2, by simp⟩
  · obtain ⟨s1, s2, s3, v, ws, rfl, rfl, e1, e2, e3⟩ := eats_many1Sep.1 h5
    refine .inr ⟨t4 ++ (s1 ++ (s2 ++ s3)), t7, ?_, w2, by simp⟩
    refine (body_sepMany hP e2 s3 ?_ v s1 (hP _ _ _ e1)).pad w1
    rcases e3 with ⟨h, -⟩ | ⟨⟨b, h⟩, -⟩
    · exact .inl h
    · exact .inr (sound_comma h)

/-- The inside of a non-empty list is read up to a closing bracket. -/
def Reads (K : Kind I F) (p : Parser I A) (vs : List A) (t : List I) : Prop :=
  ∀ c ∈ [']', '}'], ∀ rest, (∃ s, Fail p (K.lit c :: rest) s) →
    ∃ a u, t = a ++ u ∧ Ws K a ∧ NoHead (WsB K) (u ++ K.lit c :: rest) ∧
      Eats (many1Sep p (comma K)) u vs (K.lit c :: rest)

/-- What follows an item. -/
def Follow (K : Kind I F) (r : List I) : Prop := r = [] ∨ ∃ c ∈ [',', ']', '}'], ∃ r', r = K.lit c :: r'

theorem Follow.noWs (h : Follow K r) : NoHead (WsB K) r := by
  rcases h with rfl | ⟨c, hc, r', rfl⟩
  · exact noHead_nil
  · simp only [List.mem_cons, List.not_mem_nil, or_false] at hc
    rcases hc with rfl | rfl | rfl <;> exact lit_noWs

omit L [DecidableEq I] [Element I] in
theorem follow_comma : Follow K (K.lit ',' :: r) := .inr ⟨',', by simp, r, rfl⟩

omit L [DecidableEq I] [Element I] in
theorem follow_close {c : Char} (hc : c ∈ [']', '}']) : Follow K (K.lit c :: r) :=
  .inr ⟨c, by simp at hc ⊢; tauto, r, rfl⟩

theorem reads_one {v : A} {a : List I} (ha : Ws K a) (ht : ∀ rest, NoHead (WsB K) (t ++ rest))
    (h : ∀ rest, Follow K rest → Eats p t v rest) : Reads K p [v] (a ++ t) := by
  intro c hc rest hf
  refine ⟨a, t, rfl, ha, ht _, ?_⟩
  have := (eats_many1Sep (p := p) (q := comma K) (t := t) (vs := [v]) (rest := K.lit c :: rest)).2
    ⟨t, [], [], v, [], by simp, rfl, h _ (follow_close hc), .nil _, .inl ⟨rfl, fail_comma hc⟩⟩
  exact this

theorem reads_trailing {v : A} {a b : List I} (ha : Ws K a) (ht : ∀ rest, NoHead (WsB K) (t ++ rest))
    (h : ∀ rest, Follow K rest → Eats p t v rest) (hb : Ws K b) : Reads K p [v] (a ++ (t ++ K.lit ',' :: b)) := by
  intro c hc rest hf
  refine ⟨a, t ++ K.lit ',' :: b, rfl, ha, by rw [List.append_assoc]; exact ht _, ?_⟩
  refine eats_many1Sep.2 ⟨t, [], K.lit ',' :: b, v, [], by simp, rfl, ?_, .nil _, .inr ⟨⟨(((), K.lit ','), ()), ?_⟩, hf⟩⟩
  · exact h _ follow_comma
  · exact comma_eats hb (follow_close hc).noWs

theorem reads_cons {v : A} {vs : List A} {a u : List I} (ha : Ws K a) (ht : ∀ rest, NoHead (WsB K) (t ++ rest))
    (h : ∀ rest, Follow K rest → Eats p t v rest) (hr : Reads K p vs u) :
    Reads K p (v :: vs) (a ++ (t ++ K.lit ',' :: u)) := by
  intro c hc rest hf
  obtain ⟨b, u', rfl, hb, hno, he⟩ := hr c hc rest hf
  refine ⟨a, t ++ K.lit ',' :: (b ++ u'), rfl, ha, by rw [List.append_assoc]; exact ht _, ?_⟩
  obtain ⟨t1, t2, t3, w, ws, rfl, rfl, e1, e2, e3⟩ := eats_many1Sep.1 he
  refine eats_many1Sep.2 ⟨t, (K.lit ',' :: b) ++ (t1 ++ t2), t3, v, w :: ws, by simp, rfl, ?_, ?_, e3⟩
  · exact h _ follow_comma
  · refine .cons (b := (((), K.lit ','), ())) ?_ ?_ e2
    · exact comma_eats hb (by simpa using hno)
    · exact e1

theorem listOf_eats {o c : Char} (hc : c ∈ [']', '}']) {vs : List A}
    (hf : ∀ rest, ∃ s, Fail p (K.lit c :: rest) s) (h : Reads K p vs t) :
    Eats (listOf K o c p) (K.lit o :: (t ++ [K.lit c])) vs rest := by
  obtain ⟨a, u, rfl, ha, hno, he⟩ := h c hc rest (hf rest)
  have h1 : Eats (andThen (elm (K.lit o)) (space K)) (K.lit o :: a) (K.lit o, ()) (u ++ K.lit c :: rest) :=
    Eats.andThen (t1 := [K.lit o]) (t2 := a) (eats_elm.2 ⟨rfl, rfl⟩) (eats_space.2 ⟨ha, hno⟩)
  have h2 : Eats (andThen (space K) (elm (K.lit c))) [K.lit c] ((), K.lit c) rest :=
    Eats.andThen (t1 := []) (t2 := [K.lit c]) (eats_space_nil (follow_close hc).noWs) (eats_elm.2 ⟨rfl, rfl⟩)
  have := Eats.surround (t1 := K.lit o :: a) (t2 := u) (t3 := [K.lit c]) (rest := rest) (c := (K.lit o, ()))
    (w := ((), K.lit c)) h1 (eats_many0Sep.2 (.inr he)) h2
  simpa using this

theorem listOf_eats_nil {o c : Char} (hc : c ∈ [']', '}']) {w : List I} (hw : Ws K w)
    (hf : ∀ rest, ∃ s, Fail p (K.lit c :: rest) s) :
    Eats (listOf K o c p) (K.lit o :: (w ++ [K.lit c])) [] rest := by
  have h1 : Eats (andThen (elm (K.lit o)) (space K)) (K.lit o :: w) (K.lit o, ()) (K.lit c :: rest) :=
    Eats.andThen (t1 := [K.lit o]) (t2 := w) (eats_elm.2 ⟨rfl, rfl⟩) (eats_space.2 ⟨hw, (follow_close hc).noWs⟩)
  have h2 : Eats (andThen (space K) (elm (K.lit c))) [K.lit c] ((), K.lit c) rest :=
    Eats.andThen (t1 := []) (t2 := [K.lit c]) (eats_space_nil (follow_close hc).noWs) (eats_elm.2 ⟨rfl, rfl⟩)
  have := Eats.surround (t1 := K.lit o :: w) (t2 := []) (t3 := [K.lit c]) (rest := rest) (c := (K.lit o, ()))
    (w := ((), K.lit c)) h1 ((eats_many0Sep (p := p) (q := comma K)).2 (.inl ⟨rfl, rfl, hf rest⟩)) h2
  simpa using this

omit L in
theorem fail_listOf {o c : Char} (h : ∀ r', r ≠ K.lit o :: r') : Fail (listOf K o c p) r .uncommitted :=
  Fail.surround (Fail.andThen (fail_elm.2 ⟨rfl, h⟩))

theorem ret_listOf {o c : Char} (h : ∀ r', r'.length < r.length → Ret p r') : Ret (listOf K o c p) r := by
  unfold listOf surround
  refine ret_skipLeft.2 ⟨Halts.out (p := andThen (elm (K.lit o)) (space K)) _, ?_⟩
  rintro t1 ⟨x, y⟩ rest rfl h1
  obtain ⟨t3, t4, rfl, h3, h4⟩ := eats_andThen.1 h1
  obtain ⟨rfl, -⟩ := eats_elm.1 h3
  rw [ret_skipRight]
  refine ⟨?_, fun _ _ _ _ _ => Halts.out _⟩
  refine ret_many0Sep (fun r' hr' => h r' ?_) (fun _ _ => Halts.out _) (.inr fun t b r3 _ he => ?_)
  · have := hr'.length_le
    simp only [List.length_append, List.length_cons, List.length_nil]
    omega
  · obtain ⟨a, b', rfl, -, -⟩ := sound_comma he
    simp

end

/-! ### Objects as maps -/

section
variable {I V : Type} [DecidableEq I]

theorem lastOf_keys (ms : List (List I × V)) (e : List I × V) : e ∈ lastOf ms → e ∈ ms := by
  induction ms with
  | nil => intro h; exact h
  | cons m ms ih =>
    unfold lastOf
    split
    · intro h; exact List.mem_cons_of_mem _ (ih h)
    · intro h
      rcases List.mem_cons.1 h with rfl | h
      · exact List.mem_cons_self
      · exact List.mem_cons_of_mem _ (ih h)

theorem lastOf_append_one (ms : List (List I × V)) (e : List I × V) :
    lastOf (ms ++ [e]) = (lastOf ms).filter (fun x => !decide (x.1 = e.1)) ++ [e] := by
  induction ms with
  | nil => simp [lastOf]
  | cons m ms ih =>
    simp only [List.cons_append, lastOf, List.map_append, List.map_cons, List.map_nil, List.mem_append,
      List.mem_singleton]
    by_cases h1 : m.1 ∈ ms.map Prod.fst
    · simp only [h1, true_or, if_true, ih]
    · by_cases h2 : m.1 = e.1
      · rw [if_pos (.inr h2), if_neg h1, ih, List.filter_cons_of_neg (by simp [h2])]
      · rw [if_neg (by tauto), if_neg h1, ih, List.filter_cons_of_pos (by simp [h2])]; rfl

theorem collectMap_eq (ms : List (List I × V)) : collectMap ms = lastOf ms := by
  unfold collectMap
  have : ∀ done ms : List (List I × V), ms.foldl insertMap (lastOf done) = lastOf (done ++ ms) := by
    intro done ms
    induction ms generalizing done with
    | nil => simp
    | cons m ms ih =>
      simp only [List.foldl_cons]
      rw [show insertMap (lastOf done) m = lastOf (done ++ [m]) from (lastOf_append_one done m).symm, ih]
      simp
  simpa [lastOf] using this [] ms

end

/-! ### Values -/

section
variable {I F : Type} [DecidableEq I] [Element I] {K : Kind I F} [L : Lawful K]
variable {t r rest : List I} {p : Parser I (Value I F)} [Good p]

omit L in
theorem arrayByte_eq : arrayByte K p = listOf K '[' ']' p := rfl

instance : Good (arrayByte K p) := by unfold arrayByte; infer_instance
instance : Good (member K p) := by unfold member; infer_instance
instance : Good (object K p) := by unfold object; infer_instance
instance : Good (valueOf K (arrayByte K) p) := by unfold valueOf; infer_instance
instance good_value : ∀ n, Good (fixN (valueOf K (arrayByte K)) n)
  | 0 => inferInstanceAs (Good diverging)
  | n + 1 => by
    have := good_value n
    unfold fixN
    infer_instance

/-- A value with white space after it. -/
def Padded (K : Kind I F) (v : Value I F) (t : List I) : Prop := ∃ u w, t = u ++ w ∧ Text K true v u ∧ Ws K w

/-- A member with white space after it. -/
def PaddedMember (K : Kind I F) (m : List I × Value I F) (t : List I) : Prop :=
  ∃ s b c u d, t = s ++ (b ++ K.lit ':' :: (c ++ (u ++ d))) ∧ StrText K true m.1 s ∧ Ws K b ∧ Ws K c ∧
    Text K true m.2 u ∧ Ws K d

omit L in
theorem body_elems {vs : List (Value I F)} (h : Body K (Padded K) vs t) {b : List I} (hb : Ws K b) : Elems K true vs (t ++ b) := by
  induction h generalizing b with
  | one ha hp =>
    obtain ⟨u, w, rfl, h1, h2⟩ := hp
    have := Elems.one (lax := true) ha h1 (h2.append hb)
    simpa using this
  | trailing ha hp hw hc =>
    obtain ⟨u, w, rfl, h1, h2⟩ := hp
    have := Elems.trailing (lax := true) rfl ha h1 (h2.append hw) (hc.append hb)
    simpa using this
  | cons ha hp hw _ ih =>
    obtain ⟨u, w, rfl, h1, h2⟩ := hp
    have := Elems.cons (lax := true) ha h1 (h2.append hw) (ih hb)
    simpa using this

omit L in
theorem body_members {ms : List (List I × Value I F)} (h : Body K (PaddedMember K) ms t) {b : List I} (hb : Ws K b) :
    Members K true ms (t ++ b) := by
  induction h generalizing b with
  | @one m _ _ ha hp =>
    obtain ⟨k, v⟩ := m
    obtain ⟨s, b1, c, u, d, rfl, h1, h2, h3, h4, h5⟩ := hp
    have := Members.one (lax := true) ha h1 h2 h3 h4 (h5.append hb)
    simpa using this
  | @trailing m _ _ _ _ ha hp hw hc =>
    obtain ⟨k, v⟩ := m
    obtain ⟨s, b1, c, u, d, rfl, h1, h2, h3, h4, h5⟩ := hp
    have := Members.trailing (lax := true) rfl ha h1 h2 h3 h4 (h5.append hw) (hc.append hb)
    simpa using this
  | @cons m _ _ _ _ _ ha hp hw _ ih =>
    obtain ⟨k, v⟩ := m
    obtain ⟨s, b1, c, u, d, rfl, h1, h2, h3, h4, h5⟩ := hp
    have := Members.cons (lax := true) ha h1 h2 h3 h4 (h5.append hw) (ih hb)
    simpa using this

theorem sound_member (hP : ∀ t v rest, Eats p t v rest → Padded K v t) {m : List I × Value I F}
    (h : Eats (member K p) t m rest) : PaddedMember K m t := by
  obtain ⟨k, v⟩ := m
  unfold member at h
  obtain ⟨t1, t2, rfl, h1, h2⟩ := eats_andThen.1 h
  obtain ⟨t3, t4, w3, rfl, h3, h4⟩ := eats_skipRight.1 h1
  obtain ⟨t5, t6, w5, rfl, h5, h6⟩ := eats_skipRight.1 h3
  obtain ⟨t7, t8, w7, rfl, h7, h8⟩ := eats_skipRight.1 h5
  obtain ⟨rfl, -⟩ := eats_elm.1 h6
  obtain ⟨u, w, rfl, h9, h10⟩ := hP _ _ _ h2
  exact ⟨t7, t8, t4, u, w, by simp, eats_string.1 h7, (eats_space.1 h8).1, (eats_space.1 h4).1, h9, h10⟩

theorem sound_valueOf (hP : ∀ t v rest, Eats p t v rest → Padded K v t) {v : Value I F}
    (h : Eats (valueOf K (arrayByte K) p) t v rest) : Padded K v t := by
  unfold valueOf at h
  obtain ⟨u, w, w0, rfl, h1, h2⟩ := eats_skipRight.1 h
  refine ⟨u, w, rfl, ?_, (eats_space.1 h2).1⟩
  simp only [eats_or] at h1
  rcases h1 with ((((((h1 | ⟨-, h1⟩) | ⟨-, h1⟩) | ⟨-, h1⟩) | ⟨-, h1⟩) | ⟨-, h1⟩) | ⟨-, h1⟩)
  · obtain ⟨x, h3, rfl⟩ := eats_map.1 h1
    rw [(eats_seq.1 h3).1]; exact .null
  · obtain ⟨x, h3, rfl⟩ := eats_map.1 h1
    rw [(eats_seq.1 h3).1]; exact .true_
  · obtain ⟨x, h3, rfl⟩ := eats_map.1 h1
    rw [(eats_seq.1 h3).1]; exact .false_
  · obtain ⟨x, h3, rfl⟩ := eats_map.1 h1
    exact .num (sound_number h3).1 (sound_number h3).2
  · obtain ⟨x, h3, rfl⟩ := eats_map.1 h1
    exact .str (eats_string.1 h3)
  · obtain ⟨x, h3, rfl⟩ := eats_map.1 h1
    rw [arrayByte_eq] at h3
    rcases sound_listOf hP h3 with ⟨rfl, w', hw, rfl⟩ | ⟨u', b, hb, hw, rfl⟩
    · exact .arrEmpty hw
    · have := Text.arr (body_elems hb hw)
      simpa using this
  · obtain ⟨x, h4, rfl⟩ := eats_map.1 h1
    unfold object at h4
    obtain ⟨ms, h3, rfl⟩ := eats_map.1 h4
    rw [collectMap_eq]
    rcases sound_listOf (P := PaddedMember K) (fun t v rest h => sound_member hP h) h3 with
      ⟨rfl, w', hw, rfl⟩ | ⟨u', b, hb, hw, rfl⟩
    · exact .objEmpty hw
    · have := Text.obj (body_members hb hw)
      simpa using this

/-- What a value parser reads is a value. -/
theorem sound_value (n : Nat) {v : Value I F} (h : Eats (fixN (valueOf K (arrayByte K)) n) t v rest) : Padded K v t := by
  induction n generalizing t v rest with
  | zero => cases h
  | succ n ih => exact sound_valueOf (p := lazy fun _ => fixN (valueOf K (arrayByte K)) n) (fun _ _ _ h => ih h) h

end
end Json
end OniComb
