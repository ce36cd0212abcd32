import Verif.Spec.ToysTypes
import Verif.Props.ToysMeaning

/-!
# Toys programs that type check go wrong only in arithmetic (C133)
-/

namespace OniComb.Toys

theorem Store.Fulfils.below {s : Store} {Γ Γ' : Context} (h : s.Fulfils Γ) (hb : Γ'.Below Γ) : s.Fulfils Γ' :=
  fun x τ hx => h x τ (hb x τ hx)

theorem Value.Has.below {v : Value} {τ τ' : Ty} (h : v.Has τ) (hb : τ.Below τ') : v.Has τ' := by
  cases hb with
  | same => exact h
  | any => exact .any v

theorem op_has {op : Operator} {τ₁ τ₂ τ : Ty} (h : OpTyped op τ₁ τ₂ τ) {a b v : Value} (hv : Operates op a b v) :
    v.Has τ := by
  cases h <;> cases hv <;> constructor

theorem op_noResult {op : Operator} {τ₁ τ₂ τ : Ty} (h : OpTyped op τ₁ τ₂ τ) {a b : Value} (ha : a.Has τ₁) (hb : b.Has τ₂)
    (hv : ¬∃ v, Operates op a b v) : ∃ i j, a = .int i ∧ b = .int j := by
  cases h
  case and =>
    cases ha with | bool p => cases hb with | bool q =>
    cases p
    · exact (hv ⟨_, .andFalse _⟩).elim
    · exact (hv ⟨_, .andTrue _⟩).elim
  case or =>
    cases ha with | bool p => cases hb with | bool q =>
    cases p
    · exact (hv ⟨_, .orFalse _⟩).elim
    · exact (hv ⟨_, .orTrue _⟩).elim
  all_goals
    cases ha with | int i => cases hb with | int j => exact ⟨i, j, rfl, rfl⟩

variable {fns : Map (List Name × Expr)} {F : Name → Option Ty}

/-- The execution comes to an operation without result. -/
def Fails (fns : Map (List Name × Expr)) (p : Expr × Store) : Prop := ∃ q, Comes fns p q ∧ NoResult fns q

theorem Fails.next {p q : Expr × Store} (h : Fails fns q) (hn : Next fns p q) : Fails fns p := by
  obtain ⟨r, h1, h2⟩ := h
  exact ⟨r, .step hn h1, h2⟩

/-- What an execution of a typed expression gives. -/
def Fine (fns : Map (List Name × Expr)) (τ : Ty) (Γ : Context) (p : Expr × Store) : Option (Value × Store) → Prop
  | some (v, t) => v.Has τ ∧ t.Fulfils Γ
  | none => Fails fns p

theorem Fine.below {τ τ' : Ty} {Γ Γ' : Context} {p : Expr × Store} {r : Option (Value × Store)} (h : Fine fns τ Γ p r)
    (ht : τ.Below τ') (hg : Γ'.Below Γ) : Fine fns τ' Γ' p r := by
  rcases r with _ | ⟨v, t⟩
  · exact h
  · exact ⟨h.1.below ht, h.2.below hg⟩

theorem Fine.next {τ : Ty} {Γ : Context} {p q : Expr × Store} {r : Option (Value × Store)} (h : Fine fns τ Γ q r)
    (hn : Next fns p q) : Fine fns τ Γ p r := by
  rcases r with _ | ⟨v, t⟩
  · exact Fails.next h hn
  · exact h

theorem typed_exec (hF : FunctionsTyped fns F) {e : Expr} {s : Store} {r : Option (Value × Store)} (h : Exec fns e s r) :
    ∀ {Γ Γ' : Context} {τ : Ty}, Typed F Γ e τ Γ' → s.Fulfils Γ → Fine fns τ Γ' (e, s) r := by
  induction h with
  | integer i s => rintro _ _ _ ⟨⟩ hs; exact ⟨.int i, hs⟩
  | string t s => rintro _ _ _ ⟨⟩ hs; exact ⟨.string t, hs⟩
  | parenthesized h ih =>
    intro _ _ _ ht hs
    cases ht with | parenthesized ht => exact (ih ht hs).next (.parenthesized _ _)
  | symbol h =>
    intro _ _ _ ht hs
    cases ht with | symbol hx =>
    obtain ⟨w, hw, hτ⟩ := hs _ _ hx
    rw [h] at hw
    cases hw
    exact ⟨hτ, hs⟩
  | symbolUnset h =>
    intro _ _ _ ht hs
    cases ht with | symbol hx =>
    obtain ⟨w, hw, hτ⟩ := hs _ _ hx
    rw [h] at hw
    cases hw
  | assignment h ih =>
    intro _ _ _ ht hs
    cases ht with | assignment ht =>
    have := ih ht hs
    refine ⟨this.1, fun y τ hy => ?_⟩
    simp only at hy ⊢
    split at hy
    · cases hy; exact ⟨_, by simp [*], this.1⟩
    · rename_i hne; simp only [hne, if_false]; exact this.2 y τ hy
  | assignmentWrong h ih =>
    intro _ _ _ ht hs
    cases ht with | assignment ht => exact (ih ht hs).next (.assignment _ _ _)
  | println h ih =>
    intro _ _ _ ht hs
    cases ht with | println ht => exact ih ht hs
  | printlnWrong h ih =>
    intro _ _ _ ht hs
    cases ht with | println ht => exact (ih ht hs).next (.println _ _)
  | binary hl hr h ihl ihr =>
    intro _ _ _ ht hs
    cases ht with | binary hl hr ho =>
    have h1 := ihl hl hs
    have h2 := ihr hr h1.2
    exact ⟨op_has ho h, h2.2⟩
  | binaryWrong hl hr h ihl ihr =>
    intro _ _ _ ht hs
    cases ht with | binary htl htr ho =>
    have h1 := ihl htl hs
    have h2 := ihr htr h1.2
    obtain ⟨i, j, rfl, rfl⟩ := op_noResult ho h1.1 h2.1 h
    exact ⟨_, .here _, i, j, _, _, hl, hr, h⟩
  | binaryLeft hl ihl =>
    intro _ _ _ ht hs
    cases ht with | binary htl htr ho => exact (ihl htl hs).next (.left _ _ _ _)
  | binaryRight hl hr ihl ihr =>
    intro _ _ _ ht hs
    cases ht with | binary htl htr ho => exact (ihr htr (ihl htl hs).2).next (.right hl)
  | blockEmpty s => intro _ _ _ ht; cases ht
  | blockOne h ih =>
    intro _ _ _ ht hs
    cases ht with | blockOne ht => exact (ih ht hs).next (.first _ _ _)
  | blockMore h hb ih ihb =>
    intro _ _ _ ht hs
    cases ht with | blockMore ht htb => exact (ihb htb (ih ht hs).2).next (.rest h)
  | blockWrong h ih =>
    intro _ _ _ ht hs
    cases ht with | blockMore ht htb => exact (ih ht hs).next (.first _ _ _)
  | ifTrue hc hb ihc ihb =>
    intro _ _ _ ht hs
    cases ht with
    | «if» tc tb h1 h2 h3 h4 => exact ((ihb tb (ihc tc hs).2).next (.then hc)).below h3 h2
    | ifElse tc tb te h1 h2 h3 h4 => exact ((ihb tb (ihc tc hs).2).next (.then hc)).below h3 h1
  | ifElse hc he ihc ihe =>
    intro _ _ _ ht hs
    cases ht with
    | ifElse tc tb te h1 h2 h3 h4 => exact ((ihe te (ihc tc hs).2).next (.else hc)).below h4 h2
  | ifFalse hc ihc =>
    intro _ _ _ ht hs
    cases ht with
    | «if» tc tb h1 h2 h3 h4 => exact ⟨(Value.Has.bool true).below h4, (ihc tc hs).2.below h1⟩
  | ifWrong hc ihc =>
    intro _ _ _ ht hs
    cases ht with
    | «if» tc tb h1 h2 h3 h4 => exact (ihc tc hs).next (.condition _ _ _ _)
    | ifElse tc tb te h1 h2 h3 h4 => exact (ihc tc hs).next (.condition _ _ _ _)
  | ifOther hc hv ihc =>
    intro _ _ _ ht hs
    cases ht with
    | «if» tc tb h1 h2 h3 h4 => cases (ihc tc hs).1; exact (hv _ rfl).elim
    | ifElse tc tb te h1 h2 h3 h4 => cases (ihc tc hs).1; exact (hv _ rfl).elim
  | whileStop hc ihc =>
    intro _ _ _ ht hs
    cases ht with
    | «while» h0 tc tb h2 => exact ⟨.bool true, (ihc tc (hs.below h0)).2⟩
  | whileRound hc hb hw ihc ihb ihw =>
    intro _ _ _ ht hs
    cases ht with
    | «while» h0 tc tb h2 =>
      exact (ihw (.while (fun _ _ h => h) tc tb h2) ((ihb tb (ihc tc (hs.below h0)).2).2.below h2)).next (.again hc hb)
  | whileBody hc hb ihc ihb =>
    intro _ _ _ ht hs
    cases ht with
    | «while» h0 tc tb h2 => exact (ihb tb (ihc tc (hs.below h0)).2).next (.body hc)
  | whileWrong hc ihc =>
    intro _ _ _ ht hs
    cases ht with
    | «while» h0 tc tb h2 => exact (ihc tc (hs.below h0)).next (.test _ _ _)
  | whileOther hc hv ihc =>
    intro _ _ _ ht hs
    cases ht with
    | «while» h0 tc tb h2 => cases (ihc tc (hs.below h0)).1; exact (hv _ rfl).elim
  | call hf hb ih =>
    intro _ _ _ ht hs
    cases ht with | call ht =>
    obtain ⟨b, Γ, hb', ht⟩ := hF _ _ ht
    rw [hf] at hb'
    cases hb'
    exact ⟨(ih ht nofun).1, hs⟩
  | callWrong hf hb ih =>
    intro _ _ _ ht hs
    cases ht with | call ht =>
    obtain ⟨b, Γ, hb', ht⟩ := hF _ _ ht
    rw [hf] at hb'
    cases hb'
    exact (ih ht nofun).next (.call hf)
  | callMissing hf =>
    intro _ _ _ ht hs
    cases ht with | call ht =>
    obtain ⟨b, Γ, hb', ht⟩ := hF _ _ ht
    rw [hf] at hb'
    cases hb'

/-- An error of a part is an error of the whole. -/
theorem next_wrong {p q : Expr × Store} (h : Next fns p q) (hq : Exec fns q.1 q.2 none) : Exec fns p.1 p.2 none := by
  cases h with
  | parenthesized e s => exact .parenthesized hq
  | assignment x e s => exact .assignmentWrong hq
  | println e s => exact .printlnWrong hq
  | left op l r s => exact .binaryLeft hq
  | right hl => exact .binaryRight hl hq
  | first e es s =>
    cases es with
    | nil => exact .blockOne hq
    | cons e' es => exact .blockWrong hq
  | rest h => exact .blockMore h hq
  | condition c b eb s => exact .ifWrong hq
  | «then» hc => exact .ifTrue hc hq
  | «else» hc => exact .ifElse hc hq
  | test c b s => exact .whileWrong hq
  | body hc => exact .whileBody hc hq
  | again hc hb => exact .whileRound hc hb hq
  | call hf => exact .callWrong hf hq

theorem comes_wrong {p q : Expr × Store} (h : Comes fns p q) (hq : Exec fns q.1 q.2 none) : Exec fns p.1 p.2 none := by
  induction h with
  | here => exact hq
  | step h _ ih => exact next_wrong h (ih hq)

theorem noResult_wrong {p : Expr × Store} (h : NoResult fns p) : Exec fns p.1 p.2 none := by
  obtain ⟨e, s⟩ := p
  cases e with
  | binary op l r =>
    obtain ⟨a, b, t, u, h1, h2, h3⟩ := h
    exact .binaryWrong h1 h2 h3
  | _ => exact h.elim

/-- C133: a program that type checks ends with a value of the type of its main function. -/
theorem c133_type {ds : List Expr} (hd : ∀ d ∈ ds, IsFun d) (ht : Tidy (bodies ds)) (hF : FunctionsTyped (bodies ds) F)
    {τ : Ty} (hm : F "main" = some τ) {n : Nat} {v : Value} {st : St}
    (h : callMain n (Cfg.new true) St.new (.program ds) = .ok v st) : v.Has τ := by
  obtain ⟨b, Γ, hb, hty⟩ := hF _ _ hm
  obtain ⟨m, hx⟩ := (c132_ends hd ht hb v st.out).1 ⟨n, st, h, rfl⟩
  exact (typed_exec hF hx hty nofun).1

/-- C133: a program that type checks panics exactly if its execution comes to an arithmetic operation without result. -/
theorem c133_wrong {ds : List Expr} (hd : ∀ d ∈ ds, IsFun d) (ht : Tidy (bodies ds)) (hF : FunctionsTyped (bodies ds) F)
    {τ : Ty} (hm : F "main" = some τ) {b : Expr} (hb : bodies ds "main" = some ([], b)) :
    (∃ n, callMain n (Cfg.new true) St.new (.program ds) = .panic) ↔
      ∃ q, Comes (bodies ds) (b, Store.start) q ∧ NoResult (bodies ds) q := by
  rw [c132_wrong hd ht hb]
  constructor
  · intro h
    obtain ⟨b', Γ, hb', hty⟩ := hF _ _ hm
    rw [hb] at hb'
    cases hb'
    exact typed_exec hF h hty nofun
  · rintro ⟨q, h1, h2⟩
    exact comes_wrong h1 (noResult_wrong h2)

/-! ## Examples -/

/-- The types of the program `counting`. -/
def countingTypes : Name → Option Ty := fun f => if f = "main" then some .string else if f = "bye" then some .string else none

theorem counting_typed (n : Nat) : FunctionsTyped (bodies (counting n)) countingTypes := by
  intro f τ h
  unfold countingTypes at h
  split at h
  · rename_i e
    subst e
    cases h
    exact ⟨_, _, rfl, .blockMore (.assignment (.integer _ _)) (.blockMore
      (.while (Γ₀ := fun y => if y = "i" then some .int else none) (fun _ _ h => h)
        (.binary (.symbol rfl) (.integer _ _) .lessThan)
        (.blockMore (.println (.symbol rfl)) (.blockOne (.assignment (.binary (.symbol rfl) (.integer _ _) .add))))
        (fun x τ h => by simp only at h; split at h <;> simp_all)) (.blockOne (.call rfl)))⟩
  · split at h
    · rename_i e
      subst e
      cases h
      exact ⟨_, _, rfl, .blockMore (.assignment (.string _ _)) (.blockOne (.println (.symbol rfl)))⟩
    · cases h

/-- The program `counting` ends with a string if it ends. -/
example (n k : Nat) (v : Value) (st : St) (h : callMain k (Cfg.new true) St.new (.program (counting n)) = .ok v st) :
    ∃ t, v = .string t := by
  have : v.Has .string := c133_type (fun d hd => by
    simp only [counting, List.mem_cons, List.not_mem_nil, or_false] at hd
    rcases hd with rfl | rfl <;> trivial) (counting_tidy n) (counting_typed n) rfl h
  cases this
  exact ⟨_, rfl⟩

/-- `x = 0; println(1 / x);` type checks, and comes to an operation without result. -/
example : ∃ n, callMain n (Cfg.new true) St.new (.program [.functionDefinition "main" [] (.block
    [.assignment "x" (.integerLiteral 0), .println (.binary .divide (.integerLiteral 1) (.symbol "x"))])]) = .panic := by
  refine (c133_wrong (F := fun f => if f = "main" then some .int else none) (τ := .int)
    (b := .block [.assignment "x" (.integerLiteral 0), .println (.binary .divide (.integerLiteral 1) (.symbol "x"))])
    (by simp [IsFun]) ?_ ?_ rfl rfl).2
    ⟨_, .step (.rest (.assignment (.integer _ _))) (.step (.first _ _ _) (.step (.println _ _) (.here _))),
      1, 0, _, _, .integer _ _, .symbol rfl, fun ⟨v, h⟩ => by cases h; contradiction⟩
  · intro g ps b hg
    simp only [bodies] at hg
    by_cases h : g = "main" <;> simp [h] at hg
    obtain ⟨rfl, rfl⟩ := hg
    refine ⟨rfl, .block fun e he => ?_, fun h qs c hr _ _ _ _ => ?_⟩
    · simp only [List.mem_cons, List.not_mem_nil, or_false] at he
      rcases he with rfl | rfl
      · exact .assignment _ (.integer _)
      · exact .println (.binary _ (.integer _) (.symbol _))
    · have : ∀ {fns h}, ¬Reached fns (.block [.assignment "x" (.integerLiteral 0),
          .println (.binary .divide (.integerLiteral 1) (.symbol "x"))]) h := by
        intro fns h hr
        induction hr with
        | here h => simp [Expr.calls, callsAll] at h
        | through _ _ _ ih => exact ih
      exact this hr
  · intro f τ h
    simp only at h
    split at h
    · rename_i e
      subst e
      cases h
      exact ⟨_, _, rfl, .blockMore (.assignment (.integer _ _)) (.blockOne
        (.println (.binary (.integer _ _) (.symbol rfl) .divide)))⟩
    · cases h

end OniComb.Toys
