import Verif.Model.Cache

/-!
# C31: is caching transparent?
-/

namespace OniComb
variable {I A : Type}

/-- The call returned. -/
def settled : Res I A → Bool
  | .panic | .diverge => false
  | _ => true

/-- The state on which the answer to call `c` was computed: that of the first earlier call with the same
key on which the parser returns, or its own. -/
def answeredFrom (p : Parser I A) (earlier : List (CacheCall I)) (c : CacheCall I) : State I :=
  match earlier.find? (fun d => d.key = c.key && settled (p d.state)) with
  | some d => d.state
  | none => c.state

/-- The answers of a history, read off the calls alone. -/
def answers (p : Parser I A) : List (CacheCall I) → List (CacheCall I) → List (Res I A)
  | _, [] => []
  | earlier, c :: cs => p (answeredFrom p earlier c) :: answers p (earlier ++ [c]) cs

/-- A parser that returns. -/
def Returns (p : Parser I A) : Prop := ∀ s, p s ≠ .panic ∧ p s ≠ .diverge

/-- The map agrees with the calls made so far. -/
private def Agrees (p : Parser I A) (earlier : List (CacheCall I)) (m : CacheMap I A) : Prop :=
  ∀ k, m.find k = (earlier.find? (fun d => d.key = k && settled (p d.state))).map (fun d => p d.state)

private theorem cacheRun_eq (p : Parser I A) (cs : List (CacheCall I)) :
    ∀ (earlier : List (CacheCall I)) (m : CacheMap I A), Agrees p earlier m →
      cacheRun p m cs = answers p earlier cs := by
  induction cs with
  | nil => intros; rfl
  | cons c cs ih =>
    intro earlier m hm
    have hf := hm c.key
    cases h : earlier.find? (fun d => d.key = c.key && settled (p d.state)) with
    | some d =>
      rw [h] at hf
      have hstep : cacheStep p m c = (m, p d.state) := by
        unfold cacheStep; rw [hf]; rfl
      have ha : answeredFrom p earlier c = d.state := by simp only [answeredFrom, h]
      simp only [cacheRun, answers, hstep, ha]
      rw [ih (earlier ++ [c]) m]
      intro k
      rw [hm k, List.find?_append]
      cases hk : earlier.find? (fun d => d.key = k && settled (p d.state)) with
      | some e => rfl
      | none =>
        by_cases hck : c.key = k
        · subst hck; rw [h] at hk; cases hk
        · simp [hck]
    | none =>
      rw [h] at hf
      have ha : answeredFrom p earlier c = c.state := by simp only [answeredFrom, h]
      by_cases hs : settled (p c.state) = true
      · have hstep : cacheStep p m c = ((c.key, p c.state) :: m, p c.state) := by
          unfold cacheStep
          rw [hf]
          cases hr : p c.state <;> simp_all [settled]
        simp only [cacheRun, answers, hstep, ha]
        rw [ih (earlier ++ [c])]
        intro k
        rw [List.find?_append]
        by_cases hck : c.key = k
        · subst hck; rw [h]; simp [CacheMap.find, hs]
        · simp only [CacheMap.find, hck, if_false, hm k]
          cases earlier.find? (fun d => d.key = k && settled (p d.state)) <;> simp [hck]
      · have hstep : cacheStep p m c = (m, p c.state) := by
          unfold cacheStep
          rw [hf]
          cases hr : p c.state <;> simp_all [settled]
        simp only [cacheRun, answers, hstep, ha]
        rw [ih (earlier ++ [c]) m]
        intro k
        rw [hm k, List.find?_append]
        cases earlier.find? (fun d => d.key = k && settled (p d.state)) <;> simp [hs]

/-- C31, what the code does: for every parser, also one that panics or diverges on some states, and every
history of calls, call `i` is answered with the result on the state of the *first* call with the same
key (address of the state, offset minus one) on which the parser returns; calls that do not return leave
nothing in the cache. -/
theorem c31_answers (p : Parser I A) (calls : List (CacheCall I)) :
    cached p calls = answers p [] calls :=
  cacheRun_eq p calls [] [] (fun _ => rfl)

example : cached (elmPred (fun c => c == 'a')) [⟨⟨['a', 'b'], 0⟩, 7⟩, ⟨⟨['a', 'b'], 1⟩, 8⟩] =
    [.success 'a' 1, .failure (.mismatch ['b'] 2 1) .uncommitted] := by decide +kernel

/-- A panicking call is not cached: the second call with the same key runs the parser. -/
example : cached (fun s : State Char => if s.offset = 0 then .panic else .success 'a' 1)
    [⟨⟨['a', 'b'], 0⟩, 7⟩, ⟨⟨['a', 'b'], 1⟩, 7⟩] = [.panic, .success 'a' 1] := by decide +kernel

private theorem answers_map (p : Parser I A) (cs : List (CacheCall I)) :
    ∀ earlier : List (CacheCall I),
      (∀ c ∈ earlier ++ cs, ∀ d ∈ earlier ++ cs, c.key = d.key → c.state = d.state) →
      answers p earlier cs = cs.map (fun c => p c.state) := by
  induction cs with
  | nil => intros; rfl
  | cons c cs ih =>
    intro earlier h
    have ha : answeredFrom p earlier c = c.state := by
      unfold answeredFrom
      cases hf : earlier.find? (fun d => d.key = c.key && settled (p d.state)) with
      | none => rfl
      | some d =>
        have h1 := List.mem_of_find?_eq_some hf
        have h2 := List.find?_some hf
        simp only [Bool.and_eq_true, decide_eq_true_eq] at h2
        exact h d (by simp [h1]) c (by simp) h2.1
    simp only [answers, List.map_cons, ha]
    rw [ih]
    simpa [List.append_assoc] using h

/-- C31, partial: transparent on every history in which equal keys mean equal states.  Missing: the key does not determine the state, see `c31_transparent_violated`. -/
theorem c31_transparent_partial (p : Parser I A) (calls : List (CacheCall I))
    (h : ∀ c ∈ calls, ∀ d ∈ calls, c.key = d.key → c.state = d.state) :
    cached p calls = calls.map (fun c => p c.state) := by
  rw [c31_answers p]
  exact answers_map p calls [] (by simpa using h)

/-- C31, partial: whatever the addresses are, caching is transparent on a history of calls on one input
that does not contain both offset 0 and offset 1 (one run of a grammar that never tries the cached
parser at both places). -/
theorem c31_one_input_partial (p : Parser I A) (calls : List (CacheCall I))
    (input : List I) (hin : ∀ c ∈ calls, c.state.input = input)
    (h01 : ¬ ((∃ c ∈ calls, c.state.offset = 0) ∧ ∃ c ∈ calls, c.state.offset = 1)) :
    cached p calls = calls.map (fun c => p c.state) := by
  refine c31_transparent_partial p calls ?_
  intro c hc d hd hk
  have h1 : c.state.lastOffset = d.state.lastOffset := congrArg Prod.snd hk
  have h2 := hin c hc
  have h3 := hin d hd
  have hoff : c.state.offset = d.state.offset := by
    unfold State.lastOffset at h1
    by_cases h0 : c.state.offset = 0 <;> by_cases h0' : d.state.offset = 0
    · rw [h0, h0']
    · have : d.state.offset = 1 := by split at h1 <;> split at h1 <;> omega
      exact absurd ⟨⟨c, hc, h0⟩, ⟨d, hd, this⟩⟩ h01
    · have : c.state.offset = 1 := by split at h1 <;> split at h1 <;> omega
      exact absurd ⟨⟨d, hd, h0'⟩, ⟨c, hc, this⟩⟩ h01
    · split at h1 <;> split at h1 <;> omega
  obtain ⟨⟨i, o⟩, a⟩ := c
  obtain ⟨⟨i', o'⟩, a'⟩ := d
  simp_all

example : cached (elmPred (fun c => c != 'x')) [⟨⟨['a', 'b', 'c'], 1⟩, 7⟩, ⟨⟨['a', 'b', 'c'], 2⟩, 7⟩,
    ⟨⟨['a', 'b', 'c'], 1⟩, 3⟩] = [.success 'b' 1, .success 'c' 1, .success 'b' 1] := by decide +kernel

/-- C31 is violated within one input: with the same state address, offset 1 is answered with the result
for offset 0. -/
theorem c31_transparent_violated :
    ∃ (p : Parser Char Char) (calls : List (CacheCall Char)), Returns p ∧
      (∀ c ∈ calls, c.state.offset ≤ c.state.input.length) ∧
      cached p calls ≠ calls.map (fun c => p c.state) := by
  refine ⟨fun s => match s.input.drop s.offset with
    | c :: _ => .success c 1
    | [] => .failure .incomplete .uncommitted,
    [⟨⟨['a', 'b'], 0⟩, 7⟩, ⟨⟨['a', 'b'], 1⟩, 7⟩], ?_, ?_, ?_⟩
  · intro s
    dsimp only
    cases s.input.drop s.offset <;> simp
  · intro c hc
    simp only [List.mem_cons, List.not_mem_nil, or_false] at hc
    rcases hc with rfl | rfl <;> decide
  · intro h
    simp [cached, cacheRun, cacheStep, CacheMap.find, CacheCall.key, State.lastOffset] at h

/-- C31 is violated across inputs: using one cached parser for two texts, the second is answered with
the result for the first if its state happens to have the same address. -/
theorem c31_two_inputs_violated :
    ∃ (p : Parser Char Char) (t u : List Char) (addr : Nat), Returns p ∧
      cached p [⟨⟨t, 0⟩, addr⟩, ⟨⟨u, 0⟩, addr⟩] ≠ [p ⟨t, 0⟩, p ⟨u, 0⟩] := by
  refine ⟨fun s => match s.input.drop s.offset with
    | c :: _ => .success c 1
    | [] => .failure .incomplete .uncommitted, ['a'], ['b'], 7, ?_, ?_⟩
  · intro s
    dsimp only
    cases s.input.drop s.offset <;> simp
  · intro h
    simp [cached, cacheRun, cacheStep, CacheMap.find, CacheCall.key, State.lastOffset] at h

/-- C31, recursion: caching a recursive grammar changes its result: `((7))`-like grammars panic as soon
as they recurse. -/
theorem c31_recursive_violated :
    ∃ (F : Parser Char Char → Parser Char Char) (input : List Char),
      parse (fixN F 3) input = .ok '7' ∧ parse (cachedRecursive F) input = .panic := by
  refine ⟨fun rec => or (elmPred fun c => c == '7')
    (skipRight (skipLeft (elmPred fun c => c == '(') rec) (elmPred fun c => c == ')')),
    ['(', '7', ')'], ?_, ?_⟩ <;> decide +kernel

end OniComb
