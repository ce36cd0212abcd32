import Verif.Spec.JsonBench
import Verif.Model.JsonBench
import Verif.Lemmas.CacheGrammar
import Verif.Lemmas.JsonComplete
import Verif.Lemmas.JsonPrint

/-! # Helper lemmas: the grammars of the benchmark -/

set_option linter.unusedSectionVars false

namespace OniComb.Json
open Stateful

section
variable {I F C : Type} [DecidableEq I] [Element I] (K : Kind I F)

/-! ### The guarded grammar -/

/-- Later than the first place. -/
abbrev late : Nat → Bool := fun o => decide (1 ≤ o)

/-- At one place. -/
abbrev here (o : Nat) : Nat → Bool := fun x => decide (x = o)

theorem late_apart : late 0 = false ∨ late 1 = false := .inl rfl

theorem here_apart (o : Nat) : here o 0 = false ∨ here o 1 = false := by
  unfold here
  by_cases h : 0 = o
  · subst h; exact .inr rfl
  · exact .inl (by simpa using h)

/-- The cell of an alternative that is asked once. -/
abbrev once (o : Nat) (p : Parser I (Value I F)) : Cell I := ⟨Value I F, p, here o, here_apart o⟩

/-- The cell of a parser that is asked behind a quote or a bracket. -/
abbrev behind {A : Type} (p : Parser I A) : Cell I := ⟨A, p, late, late_apart⟩

/-- A string parser with one cache. -/
structure StrCaches (str : (T : Type) → SParser (CacheMap I C × T) I (List I)) (inner : Parser I C)
    (g p : Parser I (List I)) : Prop where
  caches : ∀ Γ : List (Cell I), Caches (behind inner :: Γ) (str (Store Γ)) g p
  eq : ∀ s, g s = p s

variable {str : (T : Type) → SParser (CacheMap I C × T) I (List I)} {inner : Parser I C} {gs ps : Parser I (List I)}
variable (num : Parser I F)

def guardedArray (v : Parser I (Value I F)) : Parser I (List (Value I F)) := arrayChar K (only late v)

def guardedObject (gs : Parser I (List I)) (v : Parser I (Value I F)) : Parser I (List (List I × Value I F)) :=
  map (surround (skipRight (elm (K.lit '{')) (space K))
    (many0Sep (andThen (skipRight (skipRight (skipRight (only late gs) (space K)) (elm (K.lit ':'))) (space K)) (only late v))
      (plainComma K))
    (skipLeft (space K) (elm (K.lit '}')))) collectMap

def guardedValueOf (gs : Parser I (List I)) (v : Parser I (Value I F)) (o1 o2 o3 o4 o5 o6 : Nat) : Parser I (Value I F) :=
  skipRight
    (or (or (or (or (or (only (here o1) (map gs .str))
      (only (here o2) (map num .num)))
      (only (here o3) (map (benchBoolean K) .bool)))
      (only (here o4) (map (seq (K.lits "null")) fun _ => .null)))
      (only (here o5) (map (guardedArray K v) .arr)))
      (only (here o6) (map (guardedObject K gs v) .obj)))
    (space K)

theorem caches_array (Γ : List (Cell I)) {sv : SParser (Store Γ) I (Value I F)} {gv pv : Parser I (Value I F)}
    (h : Caches Γ sv gv pv) : Caches (behind gv :: Γ) (benchArray K sv) (guardedArray K gv) (arrayChar K pv) :=
  .skipLeft (.plain _) (.skipRight (.repeatSep _ (.cache _ _ h) (.plain _)) (.plain _))

theorem caches_object (Γ : List (Cell I)) (hs : StrCaches str inner gs ps)
    {sv : SParser (Store (behind gs :: behind inner :: Γ)) I (Value I F)} {gv pv : Parser I (Value I F)}
    (h : Caches (behind gs :: behind inner :: Γ) sv gv pv) :
    Caches (behind gv :: behind gs :: behind inner :: Γ) (benchObject K (str (Store Γ)) sv) (guardedObject K gs gv)
      (plainObject K ps pv) :=
  .unary (unary_map _) (.skipLeft (.plain _) (.skipRight
    (.repeatSep _ (.andThen (.skipRight (.skipRight (.skipRight (.lift _ (.cache _ _ (hs.caches Γ))) (.plain _)) (.plain _))
      (.plain _)) (.cache _ _ h)) (.plain _)) (.plain _)))

theorem caches_body (hs : StrCaches str inner gs ps) {sv : (T : Type) → SParser T I (Value I F)}
    {gv pv : Parser I (Value I F)} (h : ∀ Γ : List (Cell I), Caches Γ (sv (Store Γ)) gv pv) (Γ : List (Cell I))
    (o1 o2 o3 o4 o5 o6 : Nat) :
    Caches (once (F := F) o6 (map (guardedObject K gs gv) .obj) :: behind gv :: behind gs :: behind inner ::
        once (F := F) o5 (map (guardedArray K gv) .arr) :: behind gv :: once (F := F) o4 (map (seq (K.lits "null")) fun _ => .null) ::
        once (F := F) o3 (map (benchBoolean K) .bool) :: once (F := F) o2 (map num .num) :: once (F := F) o1 (map gs .str) :: behind inner :: Γ)
      (Stateful.skipRight
        (Stateful.or
          (lift (lift (lift (lift
            (Stateful.or
              (lift (lift (benchSimple (unary (fun p => map p .str) (str _)) (map num .num) (map (benchBoolean K) .bool)
                (map (seq (K.lits "null")) fun _ => .null))))
              (Stateful.cache (unary (fun p => map p .arr) (benchArray K (sv _)))))))))
          (Stateful.cache (unary (fun p => map p .obj) (benchObject K (str _) (sv _)))))
        (ofParser (space K)))
      (guardedValueOf K num gs gv o1 o2 o3 o4 o5 o6) (plainValueOf K ps num pv) := by
  have h1 : Caches (once (F := F) o1 (map gs .str) :: behind inner :: Γ)
      (Stateful.cache (unary (fun p => map p .str) (str (Store Γ)))) (only (here o1) (map gs .str))
      (map ps (.str : List I → Value I F)) := .cache _ _ (.unary (unary_map _) (hs.caches Γ))
  have h2 : Caches (once (F := F) o2 (map num .num) :: once (F := F) o1 (map gs .str) :: behind inner :: Γ)
      (Stateful.cache (ofParser (map num .num))) (only (here o2) (map num .num)) (map num .num) := .cache _ _ (.plain _)
  have h3 : Caches (once (F := F) o3 (map (benchBoolean K) .bool) :: once (F := F) o2 (map num .num) :: once (F := F) o1 (map gs .str) :: behind inner :: Γ)
      (Stateful.cache (ofParser (map (benchBoolean K) .bool))) (only (here o3) (map (benchBoolean K) .bool))
      (map (benchBoolean K) .bool) := .cache _ _ (.plain _)
  have h4 : Caches (once (F := F) o4 (map (seq (K.lits "null")) fun _ => .null) :: once (F := F) o3 (map (benchBoolean K) .bool) ::
      once (F := F) o2 (map num .num) :: once (F := F) o1 (map gs .str) :: behind inner :: Γ)
      (Stateful.cache (ofParser (map (seq (K.lits "null")) fun _ => .null)))
      (only (here o4) (map (seq (K.lits "null")) fun _ => .null))
      (map (seq (K.lits "null")) fun _ => .null) := .cache _ _ (.plain _)
  have h5 := Caches.cache (here o5) (here_apart o5) (.unary (unary_map Value.arr) (caches_array K _
    (h (once (F := F) o4 (map (seq (K.lits "null")) fun _ => .null) :: once (F := F) o3 (map (benchBoolean K) .bool) ::
      once (F := F) o2 (map num .num) :: once (F := F) o1 (map gs .str) :: behind inner :: Γ))))
  have h6 := Caches.cache (here o6) (here_apart o6) (.unary (unary_map Value.obj) (caches_object K
    (once (F := F) o5 (map (guardedArray K gv) .arr) :: behind gv :: once (F := F) o4 (map (seq (K.lits "null")) fun _ => .null) ::
      once (F := F) o3 (map (benchBoolean K) .bool) ::
      once (F := F) o2 (map num .num) :: once (F := F) o1 (map gs .str) :: behind inner :: Γ) hs (h _)))
  have h7 := Caches.or (.lift _ (Caches.or (.lift _ (Caches.or (.lift _ h1) h2)) h3)) h4
  exact Caches.skipRight (.or (.lift _ (.lift _ (.lift _ (.lift _ (.or (.lift _ (.lift _ h7)) h5))))) h6) (.plain _)

theorem caches_valueOf (hs : StrCaches str inner gs ps) {sv : (T : Type) → SParser T I (Value I F)}
    {gv pv : Parser I (Value I F)} (h : ∀ Γ : List (Cell I), Caches Γ (sv (Store Γ)) gv pv) (Γ : List (Cell I)) :
    Caches Γ (benchValueOf K str num sv)
      (fun s => guardedValueOf K num gs gv s.offset s.offset s.offset s.offset s.offset s.offset s)
      (plainValueOf K ps num pv) :=
  .fresh (fun _ => inner) (fun _ => late) (fun _ => late_apart) (fun _ => _) fun _ =>
  .fresh (fun _ => map gs .str) here here_apart (fun o1 s => guardedValueOf K num gs gv o1 s.offset s.offset s.offset s.offset s.offset s) fun o1 =>
  .fresh (fun _ => map num .num) here here_apart (fun o2 s => guardedValueOf K num gs gv o1 o2 s.offset s.offset s.offset s.offset s) fun o2 =>
  .fresh (fun _ => map (benchBoolean K) .bool) here here_apart (fun o3 s => guardedValueOf K num gs gv o1 o2 o3 s.offset s.offset s.offset s) fun o3 =>
  .fresh (fun _ => map (seq (K.lits "null")) fun _ => .null) here here_apart (fun o4 s => guardedValueOf K num gs gv o1 o2 o3 o4 s.offset s.offset s) fun o4 =>
  .fresh (fun _ => gv) (fun _ => late) (fun _ => late_apart) (fun _ => _) fun _ =>
  .fresh (fun _ => map (guardedArray K gv) .arr) here here_apart (fun o5 s => guardedValueOf K num gs gv o1 o2 o3 o4 o5 s.offset s) fun o5 =>
  .fresh (fun _ => inner) (fun _ => late) (fun _ => late_apart) (fun _ => _) fun _ =>
  .fresh (fun _ => gs) (fun _ => late) (fun _ => late_apart) (fun _ => _) fun _ =>
  .fresh (fun _ => gv) (fun _ => late) (fun _ => late_apart) (fun _ => _) fun _ =>
  .fresh (fun _ => map (guardedObject K gs gv) .obj) here here_apart (fun o6 => guardedValueOf K num gs gv o1 o2 o3 o4 o5 o6) fun o6 =>
    caches_body K num hs h Γ o1 o2 o3 o4 o5 o6

/-- The guarded grammar, unrolled. -/
def guardedValue (gs : Parser I (List I)) : Nat → Parser I (Value I F)
  | 0 => diverging
  | n + 1 => fun s => guardedValueOf K num gs (guardedValue gs n) s.offset s.offset s.offset s.offset s.offset s.offset s

theorem caches_value (hs : StrCaches str inner gs ps) : ∀ (n : Nat) (Γ : List (Cell I)),
    Caches Γ (benchValue K str num n (Store Γ)) (guardedValue K num gs n) (fixN (plainValueOf K ps num) n)
  | 0, _ => .plain _
  | n + 1, Γ => caches_valueOf K num hs (caches_value hs n) Γ

/-! ### The guard is never met -/

theorem elm_pos (x : I) (s : State I) (v : I) (n : Nat) (h : elm x s = .success v n) : 0 < n := by
  unfold elm elmPred State.withInput at h
  split at h
  · dsimp only at h
    split at h
    · split at h
      · cases h; exact Nat.one_pos
      · cases h
    · cases h
  · cases h

theorem skipRight_pos {A B : Type} {p : Parser I A} {q : Parser I B} (hp : ∀ s v n, p s = .success v n → 0 < n)
    (s : State I) (v : A) (n : Nat) (h : skipRight p q s = .success v n) : 0 < n := by
  unfold skipRight at h
  cases e : p s with
  | success w m =>
    rw [e] at h
    dsimp only at h
    split at h <;> cases h
    have := hp s _ m e
    omega
  | failure => rw [e] at h; cases h
  | panic => rw [e] at h; cases h
  | diverge => rw [e] at h; cases h

theorem from_array {gv pv : Parser I (Value I F)} (h : ∀ s, gv s = pv s) (s : State I) :
    guardedArray K gv s = arrayChar K pv s := by
  refine from_behind (k := 0) (fun s v n => skipRight_pos (elm_pos _) s v n) ?_ s (Nat.zero_le _)
  exact on_skipRight (on_repeatSep (from_only fun s _ => h s) (on_refl _) _) (on_refl _)

theorem from_object (hs : ∀ s, gs s = ps s) {gv pv : Parser I (Value I F)} (h : ∀ s, gv s = pv s) (s : State I) :
    guardedObject K gs gv s = plainObject K ps pv s := by
  refine on_unary (P := fun s => 0 ≤ s.offset) (unary_map _) ?_ s (Nat.zero_le _)
  refine from_behind (fun s v n => skipRight_pos (elm_pos _) s v n) ?_
  exact on_skipRight (on_repeatSep (on_andThen (on_skipRight (on_skipRight (on_skipRight
    (from_only fun s _ => hs s) (on_refl _)) (on_refl _)) (on_refl _)) (from_only fun s _ => h s)) (on_refl _) _)
    (on_refl _)

theorem guarded_eq (hs : ∀ s, gs s = ps s) : ∀ (n : Nat) (s : State I),
    guardedValue K num gs n s = fixN (plainValueOf K ps num) n s
  | 0, _ => rfl
  | n + 1, s => by
    have ih := guarded_eq hs n
    show guardedValueOf K num gs (guardedValue K num gs n) s.offset s.offset s.offset s.offset s.offset s.offset s =
      plainValueOf K ps num (fixN (plainValueOf K ps num) n) s
    have hon : ∀ {A : Type} {g p : Parser I A}, g s = p s → only (here s.offset) g s = p s := by
      intro A g p h; unfold only here; rw [if_pos (by simp)]; exact h
    have hmap : ∀ {A B : Type} {g p : Parser I A} (f : A → B), g s = p s → map g f s = map p f s := by
      intro A B g p f h; unfold map; rw [h]
    have hor : ∀ {A : Type} {g g' p p' : Parser I A}, g s = p s → g' s = p' s → or g g' s = or p p' s := by
      intro A g g' p p' h h'; unfold or; rw [h, h']
    unfold guardedValueOf plainValueOf skipRight
    rw [hor (hor (hor (hor (hor (hon (hmap _ (hs s))) (hon rfl)) (hon rfl)) (hon rfl)) (hon (hmap _ (from_array K ih s))))
      (hon (hmap _ (from_object K hs ih s)))]
    rfl

/-! ### Documents -/

/-- Where the value begins. -/
def placeOf (t : List I) : Nat → Bool :=
  match space K ⟨t, 0⟩ with
  | .success _ k => here k
  | _ => fun _ => false

theorem placeOf_apart (t : List I) : placeOf K t 0 = false ∨ placeOf K t 1 = false := by
  unfold placeOf
  cases space K ⟨t, 0⟩ with
  | success _ k => exact here_apart k
  | _ => exact .inl rfl

theorem caches_json (hs : StrCaches str inner gs ps) (n : Nat) (t : List I) :
    Caches [] (benchJson K str num n)
      (skipRight (skipLeft (space K) (only (placeOf K t) (guardedValue K num gs n))) end_) (plainJson K ps num n) :=
  .fresh (fun _ => guardedValue K num gs n) (fun _ => placeOf K t) (fun _ => placeOf_apart K t) (fun _ => _) fun _ =>
    .skipRight (.skipLeft (.plain _) (.cache _ _ (caches_value K num hs n []))) (.plain _)

theorem guardedJson_eq (hs : ∀ s, gs s = ps s) (n : Nat) (t : List I) :
    skipRight (skipLeft (space K) (only (placeOf K t) (guardedValue K num gs n))) end_ ⟨t, 0⟩ = plainJson K ps num n ⟨t, 0⟩ := by
  have h : skipLeft (space K) (only (placeOf K t) (guardedValue K num gs n)) ⟨t, 0⟩ =
      skipLeft (space K) (fixN (plainValueOf K ps num) n) ⟨t, 0⟩ := by
    unfold skipLeft
    cases e : space K ⟨t, 0⟩ with
    | success v k =>
      dsimp only
      have : placeOf K t = here k := by unfold placeOf; rw [e]
      rw [this]
      have h2 : only (here k) (guardedValue K num gs n) ((⟨t, 0⟩ : State I).advanceBy k) =
          fixN (plainValueOf K ps num) n ((⟨t, 0⟩ : State I).advanceBy k) := by
        unfold only here
        rw [if_pos (by simp [State.advanceBy])]
        exact guarded_eq K num hs n _
      rw [h2]
    | failure => rfl
    | panic => rfl
    | diverge => rfl
  unfold plainJson
  show skipRight _ _ _ = skipRight _ _ _
  unfold skipRight
  rw [h]

/-- Caches change nothing. -/
theorem benchJson_plain (hs : StrCaches str inner gs ps) (n : Nat) (t : List I)
    (h : plainJson K ps num n ⟨t, 0⟩ ≠ .diverge) : (∃ o, Parses (benchJson K str num n) t o) ∧
      ∀ o, Parses (benchJson K str num n) t o → o = parse (plainJson K ps num n) t := by
  obtain ⟨hf, hb⟩ := caches_follows (caches_json K num hs n t)
  have e := guardedJson_eq K num hs.eq n t
  obtain ⟨⟨r, σ, h1⟩, h2⟩ := (hf ⟨t, 0⟩ trivial () trivial).resolve_left (by rw [e]; exact h)
  refine ⟨⟨_, r, h1, rfl⟩, ?_⟩
  rintro o ⟨r', h3, rfl⟩
  rw [(h2 r' () h3).1, e]
  rfl

/-! ### Strings -/

theorem benchString_caches : StrCaches (fun _ => benchString K) (many0 (or (charString K) (utf16String K)))
    (map (surround (elm (K.lit '"')) (only late (many0 (or (charString K) (utf16String K)))) (elm (K.lit '"'))) List.flatten)
    (string K) where
  caches _ := .unary (unary_map _) (.skipLeft (.plain _) (.skipRight (.cache _ _ (.plain _)) (.plain _)))
  eq s := on_unary (P := fun s => 0 ≤ s.offset) (unary_map _) (from_behind (elm_pos _) (on_skipRight (from_only (on_refl _)) (on_refl _)))
    s (Nat.zero_le _)

end

/-! ### The order of the alternatives -/

section
variable {I F : Type} [DecidableEq I] [Element I] {K : Kind I F} [L : Lawful K]

theorem map_or {A B : Type} (p q : Parser I A) (f : A → B) : map (or p q) f = or (map p f) (map q f) := by
  funext s
  unfold map or
  dsimp only
  rcases p s with _ | ⟨_, _ | _⟩ | _ | _ <;> rfl

theorem map_map {A B D : Type} (p : Parser I A) (f : A → B) (g : B → D) : map (map p f) g = map p fun x => g (f x) := by
  funext s
  unfold map
  dsimp only
  rcases p s with _ | _ | _ | _ <;> rfl

theorem plainObject_eq (v : Parser I (Value I F)) : plainObject K (string K) v = object K v := by
  unfold plainObject object surround plainComma
  rw [skipLeft_skipRight, skipRight_skipLeft, skips_eq, many0Sep_map]
  rfl

/-- A soft failure. -/
def Soft {A : Type} (r : Res I A) : Prop := ∃ e, r = .failure e .uncommitted

theorem or_soft {A : Type} {p q : Parser I A} {s : State I} (h : Soft (p s)) : or p q s = q s := by
  obtain ⟨e, h⟩ := h
  unfold or
  rw [h]

theorem or_soft_mid {A : Type} {p q r : Parser I A} {s : State I} (h : Soft (q s)) : or (or p q) r s = or p r s := by
  obtain ⟨e, h⟩ := h
  unfold or
  rw [h]
  rcases p s with _ | ⟨_, _ | _⟩ | _ | _ <;> rfl

theorem or_left {A : Type} {p p' r : Parser I A} {s : State I} (h : p s = p' s) : or p r s = or p' r s := by
  unfold or
  rw [h]

/-- If all but at most one of the five simple alternatives fail softly, their order does not matter. -/
theorem reorder {A : Type} {n t f m g r : Parser I A} {s : State I}
    (h : (Soft (t s) ∧ Soft (f s) ∧ Soft (m s) ∧ Soft (g s)) ∨ (Soft (n s) ∧ Soft (f s) ∧ Soft (m s) ∧ Soft (g s)) ∨
      (Soft (n s) ∧ Soft (t s) ∧ Soft (m s) ∧ Soft (g s)) ∨ (Soft (n s) ∧ Soft (t s) ∧ Soft (f s) ∧ Soft (g s)) ∨
      (Soft (n s) ∧ Soft (t s) ∧ Soft (f s) ∧ Soft (m s))) :
    or (or (or (or (or n t) f) m) g) r s = or (or (or (or g m) (or t f)) n) r s := by
  rcases h with ⟨⟨_, h1⟩, ⟨_, h2⟩, ⟨_, h3⟩, ⟨_, h4⟩⟩ | ⟨⟨_, h1⟩, ⟨_, h2⟩, ⟨_, h3⟩, ⟨_, h4⟩⟩ |
    ⟨⟨_, h1⟩, ⟨_, h2⟩, ⟨_, h3⟩, ⟨_, h4⟩⟩ | ⟨⟨_, h1⟩, ⟨_, h2⟩, ⟨_, h3⟩, ⟨_, h4⟩⟩ |
    ⟨⟨_, h1⟩, ⟨_, h2⟩, ⟨_, h3⟩, ⟨_, h4⟩⟩
  · simp only [or, h1, h2, h3, h4]; rcases n s with _ | ⟨_, _ | _⟩ | _ | _ <;> rfl
  · simp only [or, h1, h2, h3, h4]; rcases t s with _ | ⟨_, _ | _⟩ | _ | _ <;> rfl
  · simp only [or, h1, h2, h3, h4]; rcases f s with _ | ⟨_, _ | _⟩ | _ | _ <;> rfl
  · simp only [or, h1, h2, h3, h4]; rcases m s with _ | ⟨_, _ | _⟩ | _ | _ <;> rfl
  · simp only [or, h1, h2, h3, h4]; rcases g s with _ | ⟨_, _ | _⟩ | _ | _ <;> rfl

theorem soft_at {A : Type} {p : Parser I A} [Good p] {pre r : List I} (h : Fail p r .uncommitted) :
    Soft (p ⟨pre ++ r, pre.length⟩) := (at_failure pre r .uncommitted).2 h

theorem out_panic {s : State I} (h : ¬ s.offset ≤ s.input.length) (x : I) : elm x s = .panic := by
  unfold elm elmPred State.withInput
  rw [if_neg h]

theorem plainValueOf_eq (v : Parser I (Value I F)) :
    plainValueOf K (string K) (number K) v = valueOf K (arrayChar K) v := by
  funext s
  unfold plainValueOf valueOf
  rw [plainObject_eq, map_or, map_map, map_map]
  unfold skipRight
  have key : or (or (or (or (or (map (string K) .str) (map (number K) .num))
      (or (map (seq (K.lits "true")) fun _ => (Value.bool true : Value I F)) (map (seq (K.lits "false")) fun _ => .bool false)))
      (map (seq (K.lits "null")) fun _ => .null)) (map (arrayChar K v) .arr)) (map (object K v) .obj) s =
    or (or (or (or (or (or (map (seq (K.lits "null")) fun _ => (Value.null : Value I F))
      (map (seq (K.lits "true")) fun _ => .bool true)) (map (seq (K.lits "false")) fun _ => .bool false))
      (map (number K) .num)) (map (string K) .str)) (map (arrayChar K v) .arr)) (map (object K v) .obj) s := by
    refine or_left ?_
    by_cases hs : s.offset ≤ s.input.length
    · refine (reorder ?_).symm
      obtain ⟨t, o⟩ := s
      have e : (⟨t, o⟩ : State I) = ⟨t.take o ++ t.drop o, (t.take o).length⟩ := by
        rw [List.take_append_drop, List.length_take, Nat.min_eq_left hs]
      rw [e]
      generalize t.take o = pre
      generalize t.drop o = r
      have hn := fun h : NoLit K ['n'] r => soft_at (pre := pre) (fail_null (F := F) h)
      have ht := fun h : NoLit K ['t'] r => soft_at (pre := pre) (fail_true (F := F) h)
      have hf := fun h : NoLit K ['f'] r => soft_at (pre := pre) (fail_false (F := F) h)
      have hm := fun h : NoLit K numHead r => soft_at (pre := pre)
        (p := map (number K) (Value.num : F → Value I F)) (fail_map.2 (fail_number (noLit_num h)))
      have hg := fun h : NoLit K ['"'] r => soft_at (pre := pre)
        (p := map (string K) (Value.str : List I → Value I F)) (fail_map.2 (fail_string (h '"' (by simp))))
      have no : ∀ {c : Char} {cs : List Char} {r' : List I}, r = K.lit c :: r' → c ∉ cs → c.toNat < 128 →
          (∀ x ∈ cs, x.toNat < 128) → NoLit K cs r := by
        rintro c cs r' rfl h1 h2 h3; exact noLit_cons h1 h2 h3
      by_cases h1 : ∃ r', r = K.lit 'n' :: r'
      · obtain ⟨r', h1⟩ := h1
        exact .inl ⟨ht (no h1 (by decide) (by decide) (by decide)), hf (no h1 (by decide) (by decide) (by decide)),
          hm (no h1 (by decide) (by decide) (by decide)), hg (no h1 (by decide) (by decide) (by decide))⟩
      have h1' : NoLit K ['n'] r := by
        intro c hc r' e; cases List.mem_singleton.1 hc; exact h1 ⟨r', e⟩
      by_cases h2 : ∃ r', r = K.lit 't' :: r'
      · obtain ⟨r', h2⟩ := h2
        exact .inr (.inl ⟨hn h1', hf (no h2 (by decide) (by decide) (by decide)),
          hm (no h2 (by decide) (by decide) (by decide)), hg (no h2 (by decide) (by decide) (by decide))⟩)
      have h2' : NoLit K ['t'] r := by
        intro c hc r' e; cases List.mem_singleton.1 hc; exact h2 ⟨r', e⟩
      by_cases h3 : ∃ r', r = K.lit 'f' :: r'
      · obtain ⟨r', h3⟩ := h3
        exact .inr (.inr (.inl ⟨hn h1', ht h2', hm (no h3 (by decide) (by decide) (by decide)),
          hg (no h3 (by decide) (by decide) (by decide))⟩))
      have h3' : NoLit K ['f'] r := by
        intro c hc r' e; cases List.mem_singleton.1 hc; exact h3 ⟨r', e⟩
      by_cases h4 : ∃ r', r = K.lit '"' :: r'
      · obtain ⟨r', h4⟩ := h4
        exact .inr (.inr (.inr (.inr ⟨hn h1', ht h2', hf h3', hm (no h4 (by decide) (by decide) (by decide))⟩)))
      have h4' : NoLit K ['"'] r := by
        intro c hc r' e; cases List.mem_singleton.1 hc; exact h4 ⟨r', e⟩
      exact .inr (.inr (.inr (.inl ⟨hn h1', ht h2', hf h3', hg h4'⟩)))
    · have e1 : map (string K) (Value.str : List I → Value I F) s = .panic := by
        unfold map string surround map skipLeft; rw [out_panic hs]
      have e2 : map (seq (K.lits "null")) (fun _ => (Value.null : Value I F)) s = .panic := by
        unfold map seq State.withInput; rw [if_neg hs]
      simp only [or, e1, e2]
  rw [key]

theorem plainJson_eq (n : Nat) : plainJson K (string K) (number K) n = jsonOf K (arrayChar K) n := by
  unfold plainJson jsonOf
  rw [show plainValueOf K (string K) (number K) = valueOf K (arrayChar K) from funext plainValueOf_eq]

end

/-! ### Bytes -/

section
variable {F : Type} (f64 : List UInt8 → Option F) (lossy : List UInt8 → List UInt8)

theorem benchStringBytes_caches : StrCaches (fun _ => benchStringBytes f64 lossy) (collect (many0 (benchStringChar f64)))
    (map (skipRight (skipLeft (elm (Uri.byte '"')) (only late (collect (many0 (benchStringChar f64))))) (elm (Uri.byte '"'))) lossy)
    (plainStringBytes f64 lossy) where
  caches _ := .unary (unary_map _) (.skipRight (.skipLeft (.plain _) (.cache _ _ (.plain _))) (.plain _))
  eq s := on_unary (P := fun s => 0 ≤ s.offset) (unary_map _)
    (on_skipRight (from_behind (elm_pos _) (from_only (on_refl _))) (on_refl _)) s (Nat.zero_le _)

instance : Good (benchStringChar f64) := by unfold benchStringChar escapeSequence specialChar; infer_instance

/-- The end of a string without escapes, or of the text. -/
def Stop (rest : List UInt8) : Prop := rest = [] ∨ ∃ r, rest = Uri.byte '"' :: r

/-- Without backslashes and quotes. -/
def Plain (run : List UInt8) : Prop := ∀ b ∈ run, b ≠ Uri.byte '\\' ∧ b ≠ Uri.byte '"'

variable {f64}

theorem fail_strChar_stop {rest : List UInt8} (h : Stop rest) : Fail (strChar (byteKind f64)) rest .uncommitted := by
  rcases h with rfl | ⟨r, rfl⟩
  · unfold strChar escapeSequence
    exact Fail.or ((one_none _).fail.2 ⟨rfl, noHead_nil⟩) (Fail.skipLeft (fail_elm.2 ⟨rfl, by simp⟩))
  · exact fail_strChar (K := byteKind f64) (.inl ⟨r, rfl⟩)

theorem fail_piece_stop {rest : List UInt8} (h : Stop rest) : Fail (piece (byteKind f64)) rest .uncommitted := by
  refine Fail.or ?_ ?_
  · unfold charString
    rw [fail_mapRes, fail_many1]
    exact .inl ⟨rfl, _, fail_strChar_stop h⟩
  · unfold utf16String
    rw [fail_map, fail_many1]
    refine ⟨rfl, fail_utf16Char ?_⟩
    rcases h with rfl | ⟨r, rfl⟩
    · simp
    · intro r' e
      injection e with e
      exact lit_ne (K := byteKind f64) (by decide) (by decide) (by decide) e

theorem many_plain {p : Parser UInt8 UInt8} (hp : ∀ b rest, b ≠ Uri.byte '\\' ∧ b ≠ Uri.byte '"' → Eats p [b] b rest)
    {run : List UInt8} (h : Plain run) (rest : List UInt8) : Many p run run rest := by
  induction run with
  | nil => exact .nil _
  | cons b run ih =>
    exact Many.cons (t := [b]) (hp b _ (h b (by simp))) (ih fun x hx => h x (by simp [hx]))

theorem pieces_eat {run rest : List UInt8} (h : Plain run) (hu : Uri.validUtf8 run = true) (hr : Stop rest) :
    ∃ ss, Eats (many0 (piece (byteKind f64))) run ss rest ∧ ss.flatten = run := by
  by_cases hne : run = []
  · subst hne
    exact ⟨[], eats_many0.2 ⟨.nil _, _, fail_piece_stop hr⟩, rfl⟩
  · refine ⟨[run], eats_many0.2 ⟨?_, _, fail_piece_stop hr⟩, by simp⟩
    have h1 : Eats (piece (byteKind f64)) run run rest := by
      refine eats_or.2 (.inl ?_)
      unfold charString
      refine eats_mapRes.2 ⟨run, eats_many1.2 ⟨hne, many_plain ?_ h rest, _, fail_strChar_stop hr⟩, ?_⟩
      · intro b rest hb
        exact eats_or.2 (.inl ((one_none _).eats.2 ⟨rfl, by
          rw [mem_bq]; rintro (h | h)
          · exact hb.1 h
          · exact hb.2 h⟩))
      · show Uri.fromUtf8 run = some run
        unfold Uri.fromUtf8; rw [if_pos hu]
    have := Many.cons (t' := []) (rest := rest) (p := piece (byteKind f64)) (by simpa using h1) (.nil _)
    simpa using this

theorem raw_eat {run rest : List UInt8} (h : Plain run) (hr : Stop rest) :
    Eats (collect (many0 (benchStringChar f64))) run run rest := by
  refine eats_collect.2 ⟨rfl, run, eats_many0.2 ⟨many_plain ?_ h rest, .uncommitted, ?_⟩⟩
  · intro b rest hb
    unfold benchStringChar
    exact eats_or.2 (.inl ((one_pred _).eats.2 ⟨rfl, by simp [hb.1, hb.2]⟩))
  · unfold benchStringChar escapeSequence
    rcases hr with rfl | ⟨r, rfl⟩
    · exact Fail.or ((one_pred _).fail.2 ⟨rfl, noHead_nil⟩) (Fail.skipLeft (fail_elm.2 ⟨rfl, by simp⟩))
    · refine Fail.or ((one_pred _).fail.2 ⟨rfl, noHead_cons.2 (by simp)⟩) (Fail.skipLeft (fail_elm.2 ⟨rfl, ?_⟩))
      intro r' e
      injection e with e
      exact lit_ne (K := byteKind f64) (by decide) (by decide) (by decide) e

/-- On texts without backslashes the two string parsers are the same. -/
theorem stringBytes_eq {lossy : List UInt8 → List UInt8} (hl : ∀ x, Uri.validUtf8 x = true → lossy x = x) {t : List UInt8}
    (hu : Uri.validUtf8 t = true) (hb : Uri.byte '\\' ∉ t) :
    On (fun s => s.input = t) (plainStringBytes f64 lossy) (string (byteKind f64)) := by
  rintro ⟨t', o⟩ ht
  have ht : t' = t := ht
  subst ht
  show map (skipRight (skipLeft (elm (Uri.byte '"')) (collect (many0 (benchStringChar f64)))) (elm (Uri.byte '"'))) lossy
      ⟨t', o⟩ =
    map (skipLeft (elm (Uri.byte '"')) (skipRight (many0 (piece (byteKind f64))) (elm (Uri.byte '"')))) List.flatten ⟨t', o⟩
  cases he : elm (Uri.byte '"') ⟨t', o⟩ with
  | success v n =>
    obtain ⟨r, rfl, ho, hd⟩ : ∃ r, n = 1 ∧ o ≤ t'.length ∧ t'.drop o = Uri.byte '"' :: r := by
      unfold elm elmPred State.withInput at he
      dsimp only at he
      split at he
      · rename_i ho
        cases hd : t'.drop o with
        | nil => rw [hd] at he; cases he
        | cons x r =>
          rw [hd] at he
          dsimp only at he
          split at he
          · rename_i hx
            cases he
            exact ⟨r, rfl, ho, by rw [of_decide_eq_true hx]⟩
          · cases he
      · cases he
    have hpre : (t'.take o).length = o := by rw [List.length_take, Nat.min_eq_left ho]
    have hsplit : t' = t'.take o ++ Uri.byte '"' :: r := by rw [← hd, List.take_append_drop]
    obtain ⟨run, rest, rfl, hrun, hrest⟩ : ∃ run rest, r = run ++ rest ∧ (∀ b ∈ run, b ≠ Uri.byte '"') ∧ Stop rest := by
      refine ⟨r.takeWhile (fun b => decide (b ≠ Uri.byte '"')), r.dropWhile (fun b => decide (b ≠ Uri.byte '"')),
        List.takeWhile_append_dropWhile.symm, ?_, ?_⟩
      · intro b hb
        exact of_decide_eq_true (List.all_eq_true.1 (List.all_takeWhile (p := fun b => decide (b ≠ Uri.byte '"'))) b hb)
      · cases h : r.dropWhile (fun b => decide (b ≠ Uri.byte '"')) with
        | nil => exact .inl rfl
        | cons x r' =>
          have h2 := List.head?_dropWhile_not (fun b => decide (b ≠ Uri.byte '"')) r
          rw [h] at h2
          have h3 : x = Uri.byte '"' := by simpa using h2
          exact .inr ⟨r', by rw [h3]⟩
    have hv : Uri.validUtf8 (run ++ rest) = true :=
      (validUtf8_split (t'.take o) (Uri.byte '"') (run ++ rest) (by decide) (by rw [← hsplit]; exact hu)).2
    have hvr : Uri.validUtf8 run = true := by
      rcases hrest with rfl | ⟨r', rfl⟩
      · simpa using hv
      · exact (validUtf8_split run (Uri.byte '"') r' (by decide) hv).1
    have hpl : Plain run := fun b hbr => ⟨fun e => hb (by rw [hsplit, ← e]; simp [hbr]), hrun b hbr⟩
    obtain ⟨ss, hss, hfl⟩ := pieces_eat (f64 := f64) hpl hvr hrest
    have hst : (⟨t', o + 1⟩ : State UInt8) = ⟨(t'.take o ++ [Uri.byte '"']) ++ (run ++ rest), (t'.take o ++ [Uri.byte '"']).length⟩ := by
      rw [List.append_assoc, List.singleton_append, ← hsplit, List.length_append, hpre]; rfl
    have h1 : many0 (piece (byteKind f64)) ⟨t', o + 1⟩ = .success ss run.length := by
      rw [hst]; exact (at_success _ _ _ _).2 hss
    have h2 : collect (many0 (benchStringChar f64)) ⟨t', o + 1⟩ = .success run run.length := by
      rw [hst]; exact (at_success _ _ _ _).2 (raw_eat hpl hrest)
    have hadd : (⟨t', o⟩ : State UInt8).advanceBy (1 + run.length) = (⟨t', o + 1⟩ : State UInt8).advanceBy run.length := by
      simp only [State.advanceBy]; rw [Nat.add_assoc]
    have hone : (⟨t', o⟩ : State UInt8).advanceBy 1 = ⟨t', o + 1⟩ := rfl
    unfold map skipRight skipLeft
    dsimp only
    rw [he]
    dsimp only
    rw [hone, h1, h2]
    dsimp only
    rw [hadd]
    cases elm (Uri.byte '"') ((⟨t', o + 1⟩ : State UInt8).advanceBy run.length) with
    | success w k => dsimp only; rw [hl run hvr, hfl, Nat.add_assoc]
    | failure => rfl
    | panic => rfl
    | diverge => rfl
  | failure => unfold map skipRight skipLeft; dsimp only; rw [he]
  | panic => unfold map skipRight skipLeft; dsimp only; rw [he]
  | diverge => unfold map skipRight skipLeft; dsimp only; rw [he]

/-! ### Numbers -/

/-- The text of a number. -/
abbrev numberText (f64 : List UInt8 → Option F) : Parser UInt8 (List UInt8) :=
  collect (andThen (andThen (andThen (opt (elm (Uri.byte '-'))) (integer (byteKind f64))) (opt (frac (byteKind f64))))
    (opt (exp (byteKind f64))))

instance : Good (numberText f64) := by
  unfold numberText integer frac exp; infer_instance

theorem sound_numberText {t v rest : List UInt8} (h : Eats (numberText f64) t v rest) :
    v = t ∧ Spec.NumText (byteKind f64) t := by
  obtain ⟨rfl, ⟨⟨⟨o, i⟩, f⟩, e⟩, h⟩ := eats_collect.1 h
  rw [eats_andThen] at h
  obtain ⟨t1, te, rfl, h, he⟩ := h
  rw [eats_andThen] at h
  obtain ⟨t2, tf, rfl, h, hf⟩ := h
  rw [eats_andThen] at h
  obtain ⟨ts, ti, rfl, h, hi⟩ := h
  refine ⟨rfl, ⟨ts, ti, tf, te, by simp, ?_, sound_integer hi, sound_frac hf, sound_exp he⟩⟩
  rcases eats_opt.1 h with ⟨x, -, hx⟩ | ⟨rfl, -, -⟩
  · exact .inr (eats_elm.1 hx).1
  · exact .inl rfl

theorem benchDigit_eq : benchDigit = (elmDigit : Parser UInt8 UInt8) := rfl

theorem benchNonZero_eq (b : UInt8) : (decide (49 ≤ b.toNat) && decide (b.toNat ≤ 57)) =
    (Element.isDigit b && !Element.isDigitZero b) := by
  have : ∀ b : Fin 256, (decide (49 ≤ b.val) && decide (b.val ≤ 57)) =
      (Element.isDigit (UInt8.ofNat b.val) && !Element.isDigitZero (UInt8.ofNat b.val)) := by
    decide +kernel
  have h := this ⟨b.toNat, b.toNat_lt⟩
  rw [show UInt8.ofNat b.toNat = b from UInt8.ofNat_toNat] at h
  exact h

theorem nonZero_eq (s : State UInt8) :
    elmPred (fun b : UInt8 => decide (49 ≤ b.toNat) && decide (b.toNat ≤ 57)) s = elmDigit19 s ∨
    (Soft (elmPred (fun b : UInt8 => decide (49 ≤ b.toNat) && decide (b.toNat ≤ 57)) s) ∧ Soft (elmDigit19 s)) := by
  rw [show (fun b : UInt8 => decide (49 ≤ b.toNat) && decide (b.toNat ≤ 57)) =
    fun b => Element.isDigit b && !Element.isDigitZero b from funext benchNonZero_eq]
  unfold elmDigit19 filterNot filter elmDigit elmPred State.withInput
  dsimp only
  split
  · cases s.input.drop s.offset with
    | nil => exact .inr ⟨⟨_, rfl⟩, ⟨_, rfl⟩⟩
    | cons b r =>
      dsimp only
      by_cases h1 : Element.isDigit b = true
      · by_cases h2 : Element.isDigitZero b = true
        · rw [if_neg (by simp [h2]), if_pos h1]
          dsimp only
          rw [if_neg (by simp [h2])]
          exact .inr ⟨⟨_, rfl⟩, ⟨_, rfl⟩⟩
        · rw [if_pos (by simp [h1, h2]), if_pos h1]
          dsimp only
          rw [if_pos (by simp [h2])]
          exact .inl rfl
      · rw [if_neg (by simp [h1]), if_neg h1]
        exact .inr ⟨⟨_, rfl⟩, ⟨_, rfl⟩⟩
  · exact .inl rfl

theorem benchInteger_eq :
    or (skipRight (elmPred fun b : UInt8 => decide (49 ≤ b.toNat) && decide (b.toNat ≤ 57)) (many0 benchDigit))
      (elm (Uri.byte '0')) = integer (byteKind f64) := by
  rw [benchDigit_eq]
  funext s
  show or _ (elm (Uri.byte '0')) s = or (skipRight elmDigit19 (many0 elmDigit)) (elm (Uri.byte '0')) s
  rcases nonZero_eq s with h | ⟨⟨e, h⟩, ⟨e', h'⟩⟩
  · unfold or skipRight; rw [h]
  · unfold or skipRight; rw [h, h']

/-- `f64::from_str` reads every number of the grammar. -/
def ReadsNumbers (f64 : List UInt8 → Option F) : Prop := ∀ t, Spec.NumText (byteKind f64) t → ∃ x, f64 t = some x

theorem benchNumber_eq (hf : ReadsNumbers f64) : benchNumber f64 = number (byteKind f64) := by
  have e : benchNumber f64 = mapUnwrap (numberText f64) fun bs => (Uri.fromUtf8 bs).bind f64 := by
    unfold benchNumber
    rw [benchInteger_eq (f64 := f64), benchDigit_eq]
    rfl
  rw [e]
  funext s
  show mapUnwrap (numberText f64) _ s = mapRes (mapRes (numberText f64) Uri.fromUtf8) f64 s
  unfold mapUnwrap mapRes
  dsimp only
  cases hn : numberText f64 s with
  | success v n =>
    obtain ⟨x, h1, h2⟩ : ∃ x, Uri.fromUtf8 v = some v ∧ f64 v = some x := by
      obtain ⟨t, o⟩ := s
      have ho : o ≤ t.length := by
        by_cases ho : o ≤ t.length
        · exact ho
        · have : elm (Uri.byte '-') ⟨t, o⟩ = .panic := out_panic ho _
          unfold numberText collect andThen opt or map attempt at hn
          rw [this] at hn
          cases hn
      rw [show (⟨t, o⟩ : State UInt8) = ⟨t.take o ++ t.drop o, (t.take o).length⟩ by
        rw [List.take_append_drop, List.length_take, Nat.min_eq_left ho]] at hn
      have h3 := (at_success _ _ _ _).1 hn
      obtain ⟨t1, r, h4, rfl, h5⟩ := success_split h3
      obtain ⟨rfl, h6⟩ := sound_numberText h5
      obtain ⟨x, hx⟩ := hf _ h6
      exact ⟨x, (lawful_byte f64).str_ascii _ (numText_ascii h6), hx⟩
    dsimp only
    rw [h1]
    simp only [Option.bind_some]
    rw [h2]
  | failure => rfl
  | panic => rfl
  | diverge => rfl

/-! ### Documents -/

theorem plainBytes_value (hf : ReadsNumbers f64) {lossy : List UInt8 → List UInt8}
    (hl : ∀ x, Uri.validUtf8 x = true → lossy x = x) {t : List UInt8} (hu : Uri.validUtf8 t = true)
    (hb : Uri.byte '\\' ∉ t) : ∀ n, On (fun s => s.input = t)
      (fixN (plainValueOf (byteKind f64) (plainStringBytes f64 lossy) (benchNumber f64)) n)
      (fixN (valueOf (byteKind f64) (arrayByte (byteKind f64))) n)
  | 0 => on_refl _
  | n + 1 => by
    have ih := plainBytes_value hf hl hu hb n
    have hs := stringBytes_eq (f64 := f64) hl hu hb
    show On _ (plainValueOf (byteKind f64) (plainStringBytes f64 lossy) (benchNumber f64)
        (fixN (plainValueOf (byteKind f64) (plainStringBytes f64 lossy) (benchNumber f64)) n))
      (valueOf (byteKind f64) (arrayByte (byteKind f64)) (fixN (valueOf (byteKind f64) (arrayByte (byteKind f64))) n))
    rw [← arrayChar_eq, ← plainValueOf_eq, benchNumber_eq hf, arrayChar_eq]
    rw [benchNumber_eq hf] at ih
    refine on_skipRight (on_or (on_or (on_or (on_or (on_or (on_unary (unary_map _) hs) (on_refl _)) (on_refl _)) (on_refl _))
      (on_unary (unary_map _) (on_skipLeft (on_refl _) (on_skipRight (on_repeatSep ih (on_refl _) _) (on_refl _)))))
      (on_unary (unary_map _) (on_unary (unary_map _) (on_skipLeft (on_refl _) (on_skipRight (on_repeatSep
        (on_andThen (on_skipRight (on_skipRight (on_skipRight hs (on_refl _)) (on_refl _)) (on_refl _)) ih) (on_refl _) _)
        (on_refl _)))))) (on_refl _)

theorem plainBytes_json (hf : ReadsNumbers f64) {lossy : List UInt8 → List UInt8}
    (hl : ∀ x, Uri.validUtf8 x = true → lossy x = x) {t : List UInt8} (hu : Uri.validUtf8 t = true)
    (hb : Uri.byte '\\' ∉ t) (n : Nat) :
    plainJson (byteKind f64) (plainStringBytes f64 lossy) (benchNumber f64) n ⟨t, 0⟩ = jsonByte f64 n ⟨t, 0⟩ :=
  on_skipRight (P := fun s => s.input = t) (on_skipLeft (on_refl _) (plainBytes_value hf hl hu hb n)) (on_refl _) ⟨t, 0⟩ rfl

end

/-! ### Escapes -/

section
open OniComb.Json.Spec
variable {F : Type} {f64 : List UInt8 → Option F} {lossy : List UInt8 → List UInt8}

theorem benchStringChar_eats {f64 : List UInt8 → Option F} {it : Item UInt8} (h : it.Ok (byteKind f64) false)
    (hu : ∀ ds, it ≠ .uni ds) (rest : List UInt8) : ∃ v, Eats (benchStringChar f64) (it.text (byteKind f64)) v rest := by
  unfold benchStringChar
  cases it with
  | raw b => exact ⟨b, Eats.or_left ((one_pred _).eats.2 ⟨rfl, by
      have := h.1; have := h.2.1; simp_all [byteKind]⟩)⟩
  | esc c =>
    obtain ⟨v, hv⟩ : ∃ v, (Item.esc c : Item UInt8).unit (byteKind f64) = .inl v := ⟨_, rfl⟩
    have := eats_strChar (K := byteKind f64) (rest := rest) |>.2 ⟨.esc c, h, rfl, hv⟩
    unfold strChar at this
    rcases eats_or.1 this with h1 | ⟨-, h1⟩
    · exact absurd ((one_none _).eats.1 h1).1 (by simp [Item.text])
    · refine ⟨v, Eats.or_right ((one_pred _).fail.2 ⟨rfl, ?_⟩) h1⟩
      simp [Item.text, noHead_cons, byteKind]
  | uni ds => exact absurd rfl (hu ds)

theorem benchStringChar_many {f64 : List UInt8 → Option F} (rest : List UInt8) : ∀ {items : List (Item UInt8)},
    Short (byteKind f64) items → ∃ vs, Many (benchStringChar f64) (items.flatMap (Item.text (byteKind f64))) vs rest
  | [], _ => ⟨[], .nil _⟩
  | it :: items, h => by
    obtain ⟨vs, hvs⟩ := benchStringChar_many rest (items := items) fun x hx => h x (by simp [hx])
    obtain ⟨v, hv⟩ := benchStringChar_eats (h it (by simp)).1 (h it (by simp)).2 (items.flatMap (Item.text (byteKind f64)) ++ rest)
    exact ⟨v :: vs, Many.cons hv hvs⟩

theorem benchStringChar_fail {f64 : List UInt8 → Option F} {rest : List UInt8}
    (h : (∃ r, rest = Uri.byte '"' :: r) ∨ ∃ r, rest = Uri.byte '\\' :: Uri.byte 'u' :: r) :
    Fail (benchStringChar f64) rest .uncommitted := by
  have h' := fail_strChar (K := byteKind f64) h
  unfold strChar at h'
  obtain ⟨h0, -⟩ | ⟨-, h'⟩ := fail_or.1 h'
  · cases h0
  · refine Fail.or ((one_pred _).fail.2 ⟨rfl, ?_⟩) h'
    rcases h with ⟨r, rfl⟩ | ⟨r, rfl⟩ <;> rw [noHead_cons] <;> simp

theorem stringBytes_eats {items : List (Item UInt8)} (h : Short (byteKind f64) items) (rest : List UInt8) :
    Eats (plainStringBytes f64 lossy) (Uri.byte '"' :: (items.flatMap (Item.text (byteKind f64)) ++ [Uri.byte '"']))
      (lossy (items.flatMap (Item.text (byteKind f64)))) rest := by
  unfold plainStringBytes
  refine eats_map.2 ⟨_, ?_, rfl⟩
  obtain ⟨vs, hm⟩ := benchStringChar_many (Uri.byte '"' :: rest) h
  have h1 : Eats (collect (many0 (benchStringChar f64))) (items.flatMap (Item.text (byteKind f64)))
      (items.flatMap (Item.text (byteKind f64))) (Uri.byte '"' :: rest) :=
    eats_collect.2 ⟨rfl, vs, eats_many0.2 ⟨hm, _, benchStringChar_fail (.inl ⟨_, rfl⟩)⟩⟩
  have h2 := Eats.skipLeft (p := elm (Uri.byte '"')) (t1 := [Uri.byte '"']) (eats_elm.2 ⟨rfl, rfl⟩) h1
  exact Eats.skipRight (t2 := [Uri.byte '"']) h2 (eats_elm.2 ⟨rfl, rfl⟩)

theorem stringBytes_fail {items : List (Item UInt8)} (h : Short (byteKind f64) items) (rest : List UInt8) :
    Fail (plainStringBytes f64 lossy)
      (Uri.byte '"' :: (items.flatMap (Item.text (byteKind f64)) ++ Uri.byte '\\' :: Uri.byte 'u' :: rest)) .uncommitted := by
  unfold plainStringBytes
  refine fail_map.2 ?_
  obtain ⟨vs, hm⟩ := benchStringChar_many (Uri.byte '\\' :: Uri.byte 'u' :: rest) h
  have h1 : Eats (collect (many0 (benchStringChar f64))) (items.flatMap (Item.text (byteKind f64)))
      (items.flatMap (Item.text (byteKind f64))) (Uri.byte '\\' :: Uri.byte 'u' :: rest) :=
    eats_collect.2 ⟨rfl, vs, eats_many0.2 ⟨hm, _, benchStringChar_fail (.inr ⟨_, rfl⟩)⟩⟩
  have h2 := Eats.skipLeft (p := elm (Uri.byte '"')) (t1 := [Uri.byte '"']) (eats_elm.2 ⟨rfl, rfl⟩) h1
  refine Eats.skipRight_fail h2 (fail_elm.2 ⟨rfl, ?_⟩)
  intro r e
  injection e with e
  exact absurd e (by decide)

instance : Good (plainStringBytes f64 lossy) := by
  unfold plainStringBytes escapeSequence specialChar; infer_instance

theorem good_plainValueOf {str : Parser UInt8 (List UInt8)} {num : Parser UInt8 F} {v : Parser UInt8 (Value UInt8 F)}
    [Good str] [Good num] [Good v] : Good (plainValueOf (byteKind f64) str num v) := by
  unfold plainValueOf arrayChar plainObject plainComma; infer_instance

instance good_plainValue : ∀ n,
    Good (fixN (plainValueOf (byteKind f64) (plainStringBytes f64 lossy) (number (byteKind f64))) n)
  | 0 => inferInstanceAs (Good diverging)
  | n + 1 => by
    have := good_plainValue n
    show Good (plainValueOf _ _ _ (lazy fun _ => fixN _ n))
    exact good_plainValueOf

theorem plainValueOf_string {v : Parser UInt8 (Value UInt8 F)} [Good v] {u s : List UInt8}
    (h : Eats (plainStringBytes f64 lossy) (Uri.byte '"' :: u) s []) :
    Eats (plainValueOf (byteKind f64) (plainStringBytes f64 lossy) (number (byteKind f64)) v) (Uri.byte '"' :: u)
      (.str s) [] := by
  unfold plainValueOf arrayChar plainObject plainComma
  rw [← List.append_nil (Uri.byte '"' :: u)]
  refine Eats.skipRight (w := ()) ?_ (eats_space_nil noHead_nil)
  exact Eats.or_left (Eats.or_left (Eats.or_left (Eats.or_left (Eats.or_left (eats_map.2 ⟨_, h, rfl⟩)))))

theorem plainValueOf_reject {v : Parser UInt8 (Value UInt8 F)} [Good v] {u : List UInt8}
    (h : Fail (plainStringBytes f64 lossy) (Uri.byte '"' :: u) .uncommitted) :
    Fail (plainValueOf (byteKind f64) (plainStringBytes f64 lossy) (number (byteKind f64)) v) (Uri.byte '"' :: u)
      .uncommitted := by
  unfold plainValueOf arrayChar plainObject plainComma
  have hno := fun (cs : List Char) (h1 : '"' ∉ cs) (h2 : ∀ x ∈ cs, x.toNat < 128) =>
    noLit_cons (K := byteKind f64) (r := u) h1 (by decide) h2
  refine Fail.skipRight (Fail.or (Fail.or (Fail.or (Fail.or (Fail.or (fail_map.2 h) ?_) ?_) ?_) ?_) ?_)
  · exact fail_map.2 (fail_number (noLit_num (hno _ (by decide) (by decide))))
  · exact fail_map.2 (Fail.or (fail_map.2 (fail_seq_lits (cs := ['r', 'u', 'e']) (by decide) (hno ['t'] (by decide) (by decide) 't' (by simp))))
      (fail_map.2 (fail_seq_lits (cs := ['a', 'l', 's', 'e']) (by decide) (hno ['f'] (by decide) (by decide) 'f' (by simp)))))
  · exact fail_null (hno _ (by decide) (by decide))
  · exact fail_map.2 (Fail.surround (Fail.skipRight (fail_elm.2 ⟨rfl, hno ['['] (by decide) (by decide) '[' (by simp)⟩)))
  · exact fail_map.2 (fail_map.2 (Fail.surround (Fail.skipRight (fail_elm.2 ⟨rfl, hno ['{'] (by decide) (by decide) '{' (by simp)⟩))))

theorem plainBytes_string (hf : ReadsNumbers f64) {u s : List UInt8} (n : Nat)
    (h : Eats (plainStringBytes f64 lossy) (Uri.byte '"' :: u) s []) :
    parse (plainJson (byteKind f64) (plainStringBytes f64 lossy) (benchNumber f64) (n + 1)) (Uri.byte '"' :: u) =
      .ok (.str s) := by
  unfold plainJson
  rw [benchNumber_eq hf, parse_end_ok]
  refine Eats.skipLeft (t1 := []) (v := ()) (eats_space_nil (lit_noWs (K := byteKind f64))) ?_
  have := good_plainValue (f64 := f64) (lossy := lossy) n
  exact plainValueOf_string (v := lazy fun _ => fixN _ n) h

theorem plainBytes_reject (hf : ReadsNumbers f64) {u : List UInt8} (n : Nat)
    (h : Fail (plainStringBytes f64 lossy) (Uri.byte '"' :: u) .uncommitted) :
    ∃ e, parse (plainJson (byteKind f64) (plainStringBytes f64 lossy) (benchNumber f64) (n + 1)) (Uri.byte '"' :: u) =
      .err e := by
  have h' : Fail (plainJson (byteKind f64) (plainStringBytes f64 lossy) (benchNumber f64) (n + 1)) (Uri.byte '"' :: u)
      .uncommitted := by
    unfold plainJson
    rw [benchNumber_eq hf]
    refine Fail.skipRight (Eats.skipLeft_fail (t1 := []) (v := ()) (eats_space_nil (lit_noWs (K := byteKind f64))) ?_)
    have := good_plainValue (f64 := f64) (lossy := lossy) n
    exact plainValueOf_reject (v := lazy fun _ => fixN _ n) h
  obtain ⟨e, h'⟩ := h'
  exact ⟨e, by unfold parse; rw [h']; rfl⟩

end

end OniComb.Json
