import Verif.Props.Cache
import Mathlib.Data.List.Perm.Subperm

/-!
# C137: how often a cached parser runs

A cache is there to save work: at one place of one text the wrapped parser should run at most once.
-/

namespace OniComb
variable {I A : Type}

/-- The key of `c` was answered in an earlier call. -/
def Answered (p : Parser I A) (earlier : List (CacheCall I)) (c : CacheCall I) : Prop :=
  ∃ d ∈ earlier, d.key = c.key ∧ p d.state ≠ .panic ∧ p d.state ≠ .diverge

private theorem settled_iff {r : Res I A} : settled r = true ↔ r ≠ .panic ∧ r ≠ .diverge := by
  cases r <;> simp [settled]

private theorem find_none {m : CacheMap I A} {k : Nat × Nat} : m.find k = none ↔ ∀ x ∈ m, x.1 ≠ k := by
  induction m with
  | nil => simp [CacheMap.find]
  | cons x m ih =>
    obtain ⟨k', r⟩ := x
    by_cases h : k' = k
    · simp [CacheMap.find, h]
    · simp [CacheMap.find, h, ih]

private theorem step_keys (p : Parser I A) (m : CacheMap I A) (c : CacheCall I) (k : Nat × Nat) :
    (cacheStep p m c).1.find k = none ↔ m.find k = none ∧ ¬(c.key = k ∧ p c.state ≠ .panic ∧ p c.state ≠ .diverge) := by
  unfold cacheStep
  cases hf : m.find c.key with
  | some r =>
    simp only
    constructor
    · intro h
      exact ⟨h, fun ⟨e, _⟩ => by rw [e, h] at hf; cases hf⟩
    · exact fun h => h.1
  | none =>
    cases hr : p c.state <;> by_cases hk : c.key = k <;> simp [CacheMap.find, hk]

private theorem after_keys (p : Parser I A) (cs : List (CacheCall I)) (c : CacheCall I) : ∀ m : CacheMap I A,
    (cacheAfter p m cs).find c.key = none ↔ m.find c.key = none ∧ ¬Answered p cs c := by
  induction cs with
  | nil => intro m; simp [cacheAfter, Answered]
  | cons d cs ih =>
    intro m
    rw [cacheAfter, ih, step_keys]
    simp only [Answered, List.mem_cons, exists_eq_or_imp, not_or, and_assoc]

private theorem runs_snoc (p : Parser I A) (cs : List (CacheCall I)) (c : CacheCall I) : ∀ m : CacheMap I A,
    cacheRuns p m (cs ++ [c]) = cacheRuns p m cs ++ if ((cacheAfter p m cs).find c.key).isNone then [c] else [] := by
  induction cs with
  | nil => intro m; simp [cacheRuns, cacheAfter]
  | cons d cs ih => intro m; simp only [List.cons_append, cacheRuns, cacheAfter, ih, List.append_assoc]; rfl

/-- C137, what the code does: a call runs the wrapped parser exactly if no earlier call with the same key (address of the
state, offset minus one) was answered. -/
theorem c137_runs (p : Parser I A) (calls : List (CacheCall I)) (c : CacheCall I) :
    (Answered p calls c → cacheRuns p [] (calls ++ [c]) = cacheRuns p [] calls) ∧
    (¬Answered p calls c → cacheRuns p [] (calls ++ [c]) = cacheRuns p [] calls ++ [c]) := by
  have h := after_keys p calls c []
  constructor
  · intro ha
    rw [runs_snoc, if_neg, List.append_nil]
    intro hn
    exact (h.1 (Option.isNone_iff_eq_none.1 hn)).2 ha
  · intro ha
    rw [runs_snoc, if_pos]
    exact Option.isNone_iff_eq_none.2 (h.2 ⟨rfl, ha⟩)

private theorem runs_nodup (p : Parser I A) (cs : List (CacheCall I)) : ∀ m : CacheMap I A,
    (((cacheRuns p m cs).filter fun c => settled (p c.state)).map CacheCall.key).Nodup ∧
      ∀ c ∈ cacheRuns p m cs, c ∈ cs ∧ m.find c.key = none := by
  induction cs with
  | nil => intro m; simp [cacheRuns]
  | cons c cs ih =>
    intro m
    obtain ⟨h1, h2⟩ := ih (cacheStep p m c).1
    have hold : ∀ d ∈ cacheRuns p (cacheStep p m c).1 cs, d ∈ c :: cs ∧ m.find d.key = none := fun d hd =>
      ⟨List.mem_cons_of_mem _ (h2 d hd).1, ((step_keys p m c d.key).1 (h2 d hd).2).1⟩
    cases hf : m.find c.key with
    | some r => simpa [cacheRuns, hf] using ⟨h1, by simpa using hold⟩
    | none =>
      refine ⟨?_, ?_⟩
      · by_cases hs : settled (p c.state) = true
        · simp only [cacheRuns, hf, Option.isNone_none, if_true, List.cons_append, List.nil_append, List.filter_cons, hs,
            List.map_cons, List.nodup_cons]
          refine ⟨?_, h1⟩
          intro hm
          obtain ⟨d, hd, hk⟩ := List.mem_map.1 hm
          have := (step_keys p m c d.key).1 (h2 d (List.mem_of_mem_filter hd)).2
          exact this.2 ⟨hk.symm, settled_iff.1 hs⟩
        · simpa [cacheRuns, hf, List.filter_cons, hs] using h1
      · intro d hd
        simp only [cacheRuns, hf, Option.isNone_none, if_true, List.cons_append, List.nil_append, List.mem_cons] at hd
        rcases hd with rfl | hd
        · exact ⟨List.mem_cons_self, hf⟩
        · exact hold d hd

/-- C137, partial: a parser that returns runs at most once for each address and offset. Missing: "for each offset", see
`c137_once_violated`. -/
theorem c137_once_partial (p : Parser I A) (hp : Returns p) (calls : List (CacheCall I)) :
    ((cacheRuns p [] calls).map CacheCall.key).Nodup := by
  have h := (runs_nodup p calls []).1
  rwa [List.filter_eq_self.2 fun c _ => settled_iff.2 (hp c.state)] at h

/-- C137, partial: in a text of `n` elements, with states at the addresses `as`, a parser that returns runs at most
`|as|·(n+1)` times, however often it is called. Missing: the number of addresses does not belong here. -/
theorem c137_bound_partial (p : Parser I A) (hp : Returns p) (calls : List (CacheCall I)) (as : List Nat) (n : Nat)
    (ha : ∀ c ∈ calls, c.addr ∈ as) (hn : ∀ c ∈ calls, c.state.offset ≤ n) :
    (cacheRuns p [] calls).length ≤ as.length * (n + 1) := by
  have h := c137_once_partial p hp calls
  have hsub : (cacheRuns p [] calls).map CacheCall.key ⊆ as.flatMap fun a => (List.range (n + 1)).map fun i => (a, i) := by
    intro k hk
    obtain ⟨c, hc, rfl⟩ := List.mem_map.1 hk
    have hc := ((runs_nodup p calls []).2 c hc).1
    refine List.mem_flatMap.2 ⟨c.addr, ha c hc, List.mem_map.2 ⟨c.state.lastOffset, ?_, rfl⟩⟩
    have := hn c hc
    unfold State.lastOffset
    rw [List.mem_range]
    split <;> omega
  have hle := (List.subperm_of_subset h hsub).length_le
  rw [List.length_map] at hle
  exact Nat.le_trans hle (Nat.le_of_eq (by simp [List.length_flatMap]))

/-- C137 is violated: the address of the state is part of the key. Whatever the parser and the place, it may run at every
one of any number of calls there. -/
theorem c137_once_violated (p : Parser I A) (s : State I) (n : Nat) :
    ∃ calls : List (CacheCall I), calls.length = n ∧ (∀ c ∈ calls, c.state = s) ∧ cacheRuns p [] calls = calls := by
  refine ⟨(List.range n).map fun a => ⟨s, a⟩, by simp, by simp, ?_⟩
  induction n with
  | zero => rfl
  | succ n ih =>
    rw [List.range_succ, List.map_append]
    refine ((c137_runs p _ _).2 ?_).trans (by rw [ih]; rfl)
    rintro ⟨d, hd, hk, -⟩
    obtain ⟨a, ha, rfl⟩ := List.mem_map.1 hd
    have : a = n := congrArg Prod.fst hk
    exact absurd (List.mem_range.1 ha) (by omega)

/-- C137: nothing is ever forgotten. The map has an entry for each run that returned. -/
theorem c137_memory (p : Parser I A) (calls : List (CacheCall I)) :
    (cacheAfter p [] calls).length = ((cacheRuns p [] calls).filter fun c => settled (p c.state)).length := by
  suffices ∀ m : CacheMap I A, (cacheAfter p m calls).length =
      m.length + ((cacheRuns p m calls).filter fun c => settled (p c.state)).length by simpa using this []
  induction calls with
  | nil => intro m; simp [cacheAfter, cacheRuns]
  | cons c cs ih =>
    intro m
    rw [cacheAfter, ih, cacheRuns]
    unfold cacheStep
    cases hf : m.find c.key with
    | some r => simp
    | none => cases hr : p c.state <;> simp [settled, hr] <;> omega

/-- Five calls at two places, from two addresses: three runs, three entries. -/
example : let calls : List (CacheCall Char) := [⟨⟨['a', 'b', 'c'], 1⟩, 7⟩, ⟨⟨['a', 'b', 'c'], 2⟩, 7⟩, ⟨⟨['a', 'b', 'c'], 1⟩, 7⟩,
      ⟨⟨['a', 'b', 'c'], 1⟩, 3⟩, ⟨⟨['a', 'b', 'c'], 2⟩, 7⟩]
    (cacheRuns (elmPred fun c => c != 'x') [] calls).map CacheCall.key = [(7, 0), (7, 1), (3, 0)] ∧
    (cacheAfter (elmPred fun c => c != 'x') [] calls).length = 3 := by decide +kernel

end OniComb
