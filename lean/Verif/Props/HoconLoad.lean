import Verif.Props.Hocon
import Verif.Lemmas.HoconOdd
import Verif.Lemmas.HoconCalm

/-!
# Properties of the `hocon` crate: whole documents

From text to loaded configuration.  The specifications are `Verif/Spec/HoconLoad.lean` and
`Verif/Spec/HoconText.lean`.
-/

namespace OniComb.Hocon
open OniComb OniComb.Hocon.Spec
open OniComb.Uri (Bytes byte bytes fromUtf8)

/-! ## C85 All text is Unicode -/

/-- `String::from_utf8` accepts exactly the UTF-8 encodings of sequences of characters. -/
theorem c85_decode (bs s : Bytes) : fromUtf8 bs = some s ↔ s = bs ∧ IsText bs := by
  rw [isText_iff]
  unfold fromUtf8
  by_cases h : Uri.validUtf8 bs = true
  · simp [h, eq_comm]
  · simp [h]

example : IsText (bytes "a") ∧ ¬ IsText [237, 160, 128] := by
  constructor
  · exact ⟨['a'], by decide⟩
  · rw [isText_iff]; decide

theorem clean_holds {v : Value} {s : Bytes} (h : Clean v) (hs : Holds v s) : IsText s := by
  cases hs with
  | str hp => exact h _ hp
  | key hp he => exact (h _ hp).2 _ he
  | path hp => exact h _ hp
  | method hp => exact (h _ hp).1
  | file hp => exact (h _ hp).2

/-- Every string in what the parser returns, key, path and value, is text, whatever bytes are parsed. -/
theorem c85_parsed (S : Std) (n : Nat) (t : Bytes) (vs : List Value) (v : Value) (s : Bytes)
    (h : parse (hocon S n) t = .ok vs) (hv : v ∈ vs) (hs : Holds v s) : IsText s :=
  clean_holds (parse_ok_yields (yields_hocon S n) h v hv) hs

/-- Every string in what is loaded is text, if the variables of the environment are. -/
theorem c85_loaded (S : Std) (w : World) (hw : ∀ p s, w.var p = some s → IsText s) (n : Nat) (t : Bytes) (v : Value)
    (s : Bytes) (h : parseDocument S w n t = .ok (some v)) (hs : Holds v s) : IsText s :=
  clean_holds (clean_parseDocument S w hw n h) hs

example : ∃ v, parse (hocon decDigits 2) (bytes "a=1\n") = .ok [v] ∧ Holds v (bytes "a") :=
  ⟨_, c60_unsigned_partial decDigits 0 (bytes "a") (bytes "1") ⟨1, 0⟩
    ⟨[bytes "a"], by simp, by simp [Segment]; decide, rfl⟩
    (.inl (.inr ⟨byte '1', [], rfl, by decide, by decide, by simp⟩)) (by decide),
    .key (e := (bytes "a", int 1)) .refl (by simp)⟩

/-! ## C86 Objects have one entry per key -/

/-- In what the parser returns, no object has two entries with the same key, at any depth. -/
theorem c86_parsed (S : Std) (n : Nat) (t : Bytes) (vs : List Value) (v : Value) (es : Entries)
    (h : parse (hocon S n) t = .ok vs) (hv : v ∈ vs) (hp : Part (.obj es) v) : (keys es).Nodup :=
  (parse_ok_yields (yields_hocon S n) h v hv _ hp).1

/-- The same for what is loaded. -/
theorem c86_loaded (S : Std) (w : World) (hw : ∀ p s, w.var p = some s → IsText s) (n : Nat) (t : Bytes) (v : Value)
    (es : Entries) (h : parseDocument S w n t = .ok (some v)) (hp : Part (.obj es) v) : (keys es).Nodup :=
  (clean_parseDocument S w hw n h _ hp).1

example : ∃ es, parse (hocon decDigits 2) (bytes "a=1\na=2\n") = .ok [.obj es] ∧ (keys es).Nodup := by
  obtain ⟨es, h, -⟩ := c55_witness_violated
  exact ⟨es, h, c86_parsed decDigits 2 _ _ _ es h (by simp) .refl⟩

/-! ## C87 Several values at top level -/

/-- Several top level objects and arrays, without dotted keys and includes, become the first one with the
others merged into it one after the other. -/
theorem c87_merge_partial (S : Std) (env : Env) (n : Nat) (t : Bytes) (v : Value) (vs : List Value)
    (h : parse (hocon S n) t = .ok (v :: vs)) (hi : ∀ x ∈ v :: vs, ∀ m f, x ≠ .incl m f)
    (hd : ∀ es, .obj es ∈ v :: vs → ∀ e ∈ es, byte '.' ∉ e.1) :
    ∃ w, resolveStage0 env (v :: vs) = .ok w ∧ MergedAll v vs w := by
  have hx : ∀ x ∈ v :: vs, expand env x = .ok x := fun x hx =>
    expand_plain (hi x hx) fun es he => hd es (he ▸ hx)
  have hwf : ∀ x ∈ v :: vs, Wf x := fun x hx => allSound_wf x (parse_ok_yields (yields_hocon S n) h x hx)
  obtain ⟨w, h1, h2⟩ := mergeAll_ok (env := env) vs v (fun x h => hwf x (by simp [h])) fun x h => hx x (by simp [h])
  refine ⟨w, ?_, h2⟩
  rw [resolveStage0, hx v (by simp)]
  exact h1

/-- HOCON lets the later value win.  Here the first one stays, if it is neither an object nor an array. -/
theorem c87_first_wins_violated (S : Std) (env : Env) (n : Nat) (t : Bytes) (a : Entries) (vs : List Value)
    (h : parse (hocon S n) t = .ok (.obj a :: vs)) (hi : ∀ x ∈ vs, ∀ m f, x ≠ .incl m f)
    (hd : ∀ es, .obj es ∈ .obj a :: vs → ∀ e ∈ es, byte '.' ∉ e.1) (k : Bytes) (x : Value) (hx : Scalar x)
    (hg : get k a = some x) : ∃ c, resolveStage0 env (.obj a :: vs) = .ok (.obj c) ∧ get k c = some x := by
  obtain ⟨w, h1, h2⟩ := c87_merge_partial S env n t _ vs h (fun y hy => by
    rcases List.mem_cons.1 hy with rfl | hy
    · intro m f h; cases h
    · exact hi y hy) hd
  obtain ⟨c, rfl, hc⟩ := mergedAll_first hx h2 hg
  exact ⟨c, h1, hc⟩

/-- The two objects of `{a=1} {a=2}`. -/
def twoObjects (r : Res.Out UInt8 (List Value)) : Bool :=
  match r with
  | .ok [.obj [(k, .num d)], .obj [(l, .num e)]] => decide ((k, d, l, e) = (bytes "a", ⟨1, 0⟩, bytes "a", ⟨2, 0⟩))
  | _ => false

theorem twoObjects_eq {r : Res.Out UInt8 (List Value)} (h : twoObjects r = true) :
    r = .ok [.obj [(bytes "a", int 1)], .obj [(bytes "a", int 2)]] := by
  unfold twoObjects at h
  split at h
  · cases of_decide_eq_true h; rfl
  · cases h

/-- `{a=1} {a=2}` gives 1. -/
example (env : Env) : ∃ a vs c, parse (hocon decDigits 2) (bytes "{a=1} {a=2}") = .ok (.obj a :: vs) ∧
    resolveStage0 env (.obj a :: vs) = .ok (.obj c) ∧ get (bytes "a") c = some (int 1) := by
  have h := twoObjects_eq (r := parse (hocon decDigits 2) (bytes "{a=1} {a=2}")) (by decide +kernel)
  obtain ⟨c, h1, h2⟩ := c87_first_wins_violated decDigits env 2 _ _ _ h
    (by rintro x hx m f rfl; simp at hx) (by
      intro es he e h'
      simp only [List.mem_cons, Value.obj.injEq, List.not_mem_nil, or_false] at he
      rcases he with rfl | rfl <;> simp only [List.mem_singleton] at h' <;> subst h' <;> decide)
    (bytes "a") (int 1) ⟨id, id, id⟩ rfl
  exact ⟨_, _, c, h, h1, h2⟩

/-! ## C88 What is written is what is loaded -/

/-- A document of definitions with distinct, undotted keys, with comments, is loaded as its values with the
references replaced. -/
theorem c88_load_partial (S : Std) (w : World) (ds : List (Bytes × Lit)) (ns : List Notes) (v : Value) (hne : ds ≠ [])
    (h : DocOk S.parseDecimal ds) (hns : NotesOk ns ds) (hk : (ds.map (·.1)).Nodup) (hd : ∀ e ∈ ds, byte '.' ∉ e.1)
    (hv : Resolved w.var (.obj (valueEntries S.parseDecimal ds)) (.obj (valueEntries S.parseDecimal ds)) v) :
    ∃ N, ∀ n, N ≤ n → parseDocument S w n (noted ns ds) = .ok (some v) := load_doc hne h hns hk hd w v hv

/-- The same for a file. -/
theorem c88_file_partial (S : Std) (w : World) (ds : List (Bytes × Lit)) (ns : List Notes) (v : Value) (name : Bytes)
    (hf : w.file name = some (noted ns ds)) (hne : ds ≠ [])
    (h : DocOk S.parseDecimal ds) (hns : NotesOk ns ds) (hk : (ds.map (·.1)).Nodup) (hd : ∀ e ∈ ds, byte '.' ∉ e.1)
    (hv : Resolved w.var (.obj (valueEntries S.parseDecimal ds)) (.obj (valueEntries S.parseDecimal ds)) v) :
    ∃ N, ∀ n, N ≤ n → loadFromFile S w n name = .ok (some v) := load_file hne h hns hk hd w v name hf hv

/-- Without references: `get_value` of a path of the loaded document is what is written at that path. -/
theorem c88_get_value_partial (S : Std) (w : World) (ds : List (Bytes × Lit)) (ns : List Notes) (hne : ds ≠ [])
    (h : DocOk S.parseDecimal ds) (hns : NotesOk ns ds) (hk : (ds.map (·.1)).Nodup) (hd : ∀ e ∈ ds, byte '.' ∉ e.1)
    (hc : ClosedEntries ds) :
    ∃ v N, (∀ n, N ≤ n → parseDocument S w n (noted ns ds) = .ok (some v)) ∧
      ∀ ss, ss ≠ [] → (∀ s ∈ ss, Segment s) →
        getValue v (joinDot ss) = .ok ((written ss ds).map (Lit.value S.parseDecimal)) := by
  obtain ⟨N, hN⟩ := load_doc hne h hns hk hd w _ (closed_resolvedEntries w.var _ S.parseDecimal ds hc)
  refine ⟨_, N, hN, fun ss h1 h2 => ?_⟩
  rw [c58_get_value _ ss h1 h2, written_descend _ _ _ h1]

/-- The definitions `a=1` and `x={` `b="hi"` `}`. -/
def sampleDoc : List (Bytes × Lit) :=
  [(bytes "a", .num (bytes "1")), (bytes "x", .obj [(bytes "b", .str (bytes "hi"))])]

/-- A comment in front of the first definition and one behind it. -/
def sampleNotes : List Notes := [⟨[bytes "# first"], some (bytes " ", bytes "// one")⟩]

theorem sampleDoc_ok : DocOk decDigits.parseDecimal sampleDoc := by
  have hp : ∀ k : Bytes, k = bytes "a" ∨ k = bytes "x" ∨ k = bytes "b" → PathText k := by
    rintro k (rfl | rfl | rfl) <;> exact ⟨[_], by simp, by simp [Segment]; decide, rfl⟩
  refine ⟨hp _ (.inl rfl), ?_, ?_, hp _ (.inr (.inl rfl)), ?_, ?_, trivial⟩
  · rw [Lit.Ok]; exact ⟨.inl (.inr ⟨_, [], rfl, by decide, by decide, by simp⟩), by decide⟩
  · rintro - e ⟨⟩ b ⟨⟩; unfold UnitStart; decide
  · rw [Lit.Ok]
    refine ⟨by simp, by simp, ?_⟩
    rw [OkEntries, OkEntries, OkEntry, Lit.Ok]
    exact ⟨⟨hp _ (.inr (.inr rfl)), by decide, by decide, by decide, by intro b hb; cases hb; decide⟩, trivial⟩
  · intro h; cases h

theorem sampleNotes_ok : NotesOk sampleNotes sampleDoc := by
  refine ⟨?_, ?_, trivial⟩
  · simp only [List.mem_singleton, forall_eq]; exact ⟨⟨_, .inl rfl⟩, by decide⟩
  · rintro b c ⟨⟩; exact ⟨by decide, ⟨⟨_, .inr rfl⟩, by decide⟩, trivial⟩

example : noted sampleNotes sampleDoc = bytes "# first\na=1 // one\nx={b=\"hi\"\n}\n" := by decide +kernel

example (w : World) : ∃ v N, (∀ n, N ≤ n → parseDocument decDigits w n (noted sampleNotes sampleDoc) = .ok (some v)) ∧
    getValue v (bytes "x.b") = .ok (some (.str (bytes "hi"))) := by
  obtain ⟨v, N, h1, h2⟩ := c88_get_value_partial decDigits w sampleDoc sampleNotes (by simp [sampleDoc]) sampleDoc_ok
    sampleNotes_ok (by decide) (by decide) (by simp [sampleDoc, ClosedEntries, ClosedEntry, Lit.Closed])
  refine ⟨v, N, h1, ?_⟩
  have := h2 [bytes "x", bytes "b"] (by simp) (by simp [Segment]; decide)
  exact this

/-- The property fails for documents with a dotted key: the keys without dots are lost, unless they begin a
dotted one. -/
theorem c88_undotted_lost_violated (S : Std) (w : World) (n : Nat) (t : Bytes) (es : Entries) (v : Value) (k : Bytes)
    (hk : Segment k) (hp : parse (hocon S n) t = .ok [.obj es]) (hd : ∃ e ∈ es, byte '.' ∈ e.1)
    (hn : ∀ e ∈ es, ∀ r, e.1 ≠ k ++ byte '.' :: r) (h : parseDocument S w n t = .ok (some v)) :
    getValue v k = .ok none := by
  unfold parseDocument parseFromString at h
  rw [hp] at h
  obtain ⟨x, h1, h2⟩ := bind_eq_ok.1 h
  obtain ⟨doc, h3, h4⟩ := bind_eq_ok.1 h1
  cases h2
  obtain ⟨y, h5, h6⟩ := bind_eq_ok.1 h3
  cases h6
  have h7 := c57_undotted_keys_lost_violated _ es doc k h5 hd hn
  obtain ⟨fs, rfl⟩ : ∃ fs, doc = .obj fs := by
    rw [expand] at h5
    obtain ⟨new, -, h8⟩ := bind_eq_ok.1 h5
    cases h8
    by_cases hne : new.isEmpty
    · exact ⟨es, by rw [if_pos hne]⟩
    · exact ⟨new, by rw [if_neg hne]⟩
  have h8 : get k fs = none := by
    simp only [at_] at h7
    cases hg : get k fs with
    | none => rfl
    | some z => rw [hg] at h7; cases h7
  obtain ⟨gs, rfl, h9⟩ := get_resolved h4 h8
  have := c58_get_value (.obj gs) [k] (by simp) (by simpa using hk)
  simpa [joinDot, descend, h9] using this

/-- What `parse_from_string` gives for the numbers of `a.b=1`, `c=2`. -/
def dottedOnly (r : Out (Option Value)) : Bool :=
  match r with
  | .ok (some v) =>
    match getValue v (bytes "c"), getValue v (bytes "a.b") with
    | .ok none, .ok (some (.num d)) => decide (d = ⟨1, 0⟩)
    | _, _ => false
  | _ => false

/-- A document in question: the key `c` of `a.b=1`, `c=2` is lost. -/
example : dottedOnly (parseDocument decDigits ⟨fun _ => none, fun _ => none⟩ 5 (bytes "a.b=1\nc=2\n")) = true := by
  decide +kernel

/-! ## C89 The parser returns, and panics only at numbers -/

/-- The parser returns on every text; nesting as deep as the text is long is enough. -/
theorem c89_returns (S : Std) (n : Nat) (t : Bytes) (h : t.length < n) : parse (hocon S n) t ≠ .diverge :=
  hocon_returns S h

/-- The bound on the nesting in the model does not matter: a larger one gives the same result. -/
theorem c89_depth (S : Std) (n m : Nat) (t : Bytes) (h : t.length < n) (hm : t.length < m) :
    parse (hocon S n) t = parse (hocon S m) t := by
  rcases Nat.le_total n m with hle | hle
  · exact (parse_le hle (hocon_returns S h)).symm
  · exact parse_le hle (hocon_returns S hm)

/-- The same for loading: what is loaded does not depend on the bound. -/
theorem c89_load_depth (S : Std) (w : World) (n m : Nat) (t : Bytes) (r r' : Option Value)
    (h : parseDocument S w n t = .ok r) (h' : parseDocument S w m t = .ok r') : r = r' := by
  rcases Nat.le_total n m with hle | hle
  · have := document_le w hle h
    rw [this] at h'; cases h'; rfl
  · have := document_le w hle h'
    rw [this] at h; cases h; rfl

/-- The parser panics only if the text holds a number with an exponent and without fraction, or one that
`Decimal` cannot read. -/
theorem c89_panic_number (S : Std) (n : Nat) (t : Bytes) (h : parse (hocon S n) t = .panic) :
    ∃ x i f e y, t = x ++ (i ++ f ++ e) ++ y ∧ BadNumber S.parseDecimal i f e := by
  by_contra hn
  have hfit : NumbersFit S.parseDecimal t := fun x i f e y ht hb => hn ⟨x, i, f, e, y, ht, hb⟩
  have := calm_hocon S hfit n
  exact parse_calm h

example : ∃ x i f e y, bytes "a=1e5\n" = x ++ (i ++ f ++ e) ++ y ∧ BadNumber decDigits.parseDecimal i f e :=
  c89_panic_number decDigits 2 _ (c60_exponent_panics_violated decDigits 0 (bytes "a") (bytes "1") (bytes "e5") [] false
    ⟨[bytes "a"], by simp, by simp [Segment]; decide, rfl⟩ (.inr ⟨_, [], rfl, by decide, by decide, by simp⟩)
    ⟨_, [], bytes "5", rfl, .inl rfl, .inl rfl, by decide, by unfold Digit; decide⟩ (by simp))

/-! ## C90 Empty documents and missing files -/

/-- An empty configuration, of blanks and comments only, makes the loader panic instead of giving an empty
configuration. -/
theorem c90_empty_panics_violated (S : Std) (w : World) (n : Nat) (b : Bytes) (cs : List Bytes)
    (hb : ∀ x ∈ b, x ∈ bytes " \t\r\n") (hc : ∀ c ∈ cs, CommentLine c) :
    parseDocument S w (n + 1) (b ++ commentLines cs) = .panic := by
  unfold parseDocument parseFromString
  rw [hocon_blank n ⟨b, cs, hb, hc, rfl⟩]
  rfl

/-- A file that does not exist makes the loader panic instead of returning an error. -/
theorem c90_missing_file_panics_violated (S : Std) (w : World) (n : Nat) (name : Bytes) (h : w.file name = none) :
    loadFromFile S w (n + 1) name = .panic := by
  unfold loadFromFile
  simp only [h, Option.getD_none]
  unfold parseFromString
  rw [hocon_blank n gap_nil]
  rfl

example : parseDocument decDigits ⟨fun _ => none, fun _ => none⟩ 1 (bytes "\n# nothing\n") = .panic :=
  c90_empty_panics_violated decDigits _ 0 (bytes "\n") [bytes "# nothing"] (by decide)
    (by simp only [List.mem_singleton, forall_eq]; exact ⟨⟨_, .inl rfl⟩, by decide⟩)

/-! ## C91 Includes -/

/-- `include file("p")` does not load the file `p` but one whose name has the quotes in it; if there is none,
as usual, the loader panics. So does `include url("p")`: the method is not looked at. -/
theorem c91_include_panics_violated (S : Std) (w : World) (n : Nat) (m p : Bytes)
    (hm : m = bytes "file" ∨ m = bytes "url") (hp : PathText p) (h : w.file (byte '"' :: p ++ [byte '"']) = none) :
    parseDocument S w (n + 2) (bytes "include " ++ m ++ bytes "(\"" ++ p ++ bytes "\")") = .panic := by
  unfold parseDocument parseFromString
  rw [hocon_include hm hp]
  simp only [resolveStage0, expand]
  have : (w.env S (n + 2)).load (byte '"' :: p ++ [byte '"']) = .panic := by
    unfold World.env
    simp only
    rw [c90_missing_file_panics_violated S w (n + 1) _ h]
    rfl
  rw [this]
  rfl

/-- The file `conf` exists, and is not loaded. -/
example : ∃ w : World, w.file (bytes "conf") = some (bytes "a=1\n") ∧
    parseDocument decDigits w 2 (bytes "include " ++ bytes "file" ++ bytes "(\"" ++ bytes "conf" ++ bytes "\")") = .panic :=
  ⟨⟨fun f => if f = bytes "conf" then some (bytes "a=1\n") else none, fun _ => none⟩, by simp,
    c91_include_panics_violated decDigits _ 0 (bytes "file") (bytes "conf") (.inl rfl)
      ⟨[bytes "conf"], by simp, by simp [Segment]; decide, rfl⟩ (by decide)⟩

/-- A URL is taken for the name of a local file. -/
example (w : World) (h : w.file (bytes "\"conf\"") = none) :
    parseDocument decDigits w 2 (bytes "include " ++ bytes "url" ++ bytes "(\"" ++ bytes "conf" ++ bytes "\")") = .panic :=
  c91_include_panics_violated decDigits w 0 (bytes "url") (bytes "conf") (.inr rfl)
    ⟨[bytes "conf"], by simp, by simp [Segment]; decide, rfl⟩ h

/-- If there is a file with that name, its content is what is loaded. -/
theorem c91_include_partial (S : Std) (w : World) (m p : Bytes) (hm : m = bytes "file" ∨ m = bytes "url")
    (hp : PathText p) (ds : List (Bytes × Lit)) (ns : List Notes)
    (hf : w.file (byte '"' :: p ++ [byte '"']) = some (noted ns ds)) (hne : ds ≠ [])
    (h : DocOk S.parseDecimal ds) (hns : NotesOk ns ds) (hk : (ds.map (·.1)).Nodup) (hd : ∀ e ∈ ds, byte '.' ∉ e.1)
    (hc : ClosedEntries ds) :
    ∃ N, ∀ n, N ≤ n → parseDocument S w n (bytes "include " ++ m ++ bytes "(\"" ++ p ++ bytes "\")") =
      .ok (some (.obj (valueEntries S.parseDecimal ds))) := by
  have hr := fun doc => closed_resolvedEntries w.var doc S.parseDecimal ds hc
  obtain ⟨N, hN⟩ := load_file hne h hns hk hd w _ _ hf (hr _)
  obtain ⟨M, hM⟩ := resolve_complete (env := w.env S 0) (hr (.obj (valueEntries S.parseDecimal ds)))
  refine ⟨max N (max M 1), fun n hn => ?_⟩
  obtain ⟨l, rfl⟩ : ∃ l, n = l + 1 := ⟨n - 1, by omega⟩
  unfold parseDocument parseFromString
  rw [hocon_include hm hp]
  have hl : (w.env S (l + 1)).load (byte '"' :: p ++ [byte '"']) = .ok (.obj (valueEntries S.parseDecimal ds)) := by
    unfold World.env
    simp only
    rw [hN (l + 1) (by omega)]
    rfl
  simp only [resolveStage0, expand]
  rw [hl]
  simp only [Out.bind, mergeAll, resolveStage1]
  rw [resolve_le (by omega) (resolve_sub (sub_world w (Nat.zero_le (l + 1))) _ _ _ hM)]

/-! ## C92 Durations from Rust and back -/

/-- A `std::time::Duration` below 2^64 nanoseconds, about 584 years, survives. -/
theorem c92_std_partial (oc : Bool) (ns : Nat) (h : ns < 2 ^ 64) :
    ∃ d u, durationFromStd ns = some (d, u) ∧ toStdDuration oc d u = .ok ns := by
  refine ⟨⟨ns, 0⟩, .nanoseconds, if_pos (by omega), ?_⟩
  have h1 := c61_std_duration_partial oc ⟨ns, 0⟩ .nanoseconds ns ⟨by simp, by simp; omega⟩ h (by simp only [unitNanos]; omega)
  rw [h1]; simp [unitNanos]

theorem toU64_none {ns : Nat} (h : 2 ^ 64 ≤ ns) : (Decimal.mk ns 0).toU64 = none := by
  unfold Decimal.toU64 Decimal.trunc
  simp only [Int.pow_zero, Int.tdiv_one]
  exact if_neg fun h' => by have := h'.2; omega

theorem fromStd_some {ns : Nat} (h : ns < 2 ^ 96) : durationFromStd ns = some (⟨ns, 0⟩, .nanoseconds) := if_pos h

theorem fromStd_none {ns : Nat} (h : 2 ^ 96 ≤ ns) : durationFromStd ns = none := if_neg (by omega)

theorem toStd_err {oc : Bool} {d : Decimal} {u : TimeUnit} (h : d.toU64 = none) : toStdDuration oc d u = .err := by
  unfold toStdDuration
  rw [h]

/-- From there on the way back is an error, and beyond 2^96 nanoseconds the way there panics. -/
theorem c92_std_violated (oc : Bool) (ns : Nat) (h : 2 ^ 64 ≤ ns) :
    (ns < 2 ^ 96 → ∃ d u, durationFromStd ns = some (d, u) ∧ toStdDuration oc d u = .err) ∧
    (2 ^ 96 ≤ ns → durationFromStd ns = none) := by
  refine ⟨fun h2 => ⟨⟨ns, 0⟩, .nanoseconds, fromStd_some h2, toStd_err (toU64_none h)⟩, fun h2 => fromStd_none h2⟩

/-- A `chrono::Duration` survives whenever it can be converted at all. -/
theorem c92_chrono (ns : Int) (d : Decimal) (u : TimeUnit) (h : durationFromChrono ns = some (d, u)) :
    toDuration d u = .ok ns := by
  unfold durationFromChrono at h
  split at h
  · rename_i hb
    cases h
    unfold toDuration Decimal.toI64 Decimal.trunc
    simp only [Int.pow_zero, Int.tdiv_one, hb, and_self, if_true]
    unfold chronoDuration
    rw [if_pos (by omega)]
  · cases h

/-- `chrono::Duration` of more than 2^63 nanoseconds, about 292 years, panics on the way. -/
theorem c92_chrono_panics_violated (ns : Int) (h : 2 ^ 63 ≤ ns ∨ ns < -2 ^ 63) : durationFromChrono ns = none :=
  if_neg (by omega)

example : toStdDuration true ⟨18446744073709551616, 0⟩ .nanoseconds = .err := by decide

/-! ## C93 Quoted strings are taken literally -/

/-- The empty string is a syntax error. -/
theorem c93_empty_string_violated (S : Std) (n : Nat) (k x : Bytes) (hk : PathText k) :
    ∃ e, parse (hocon S (n + 2)) (k ++ bytes "=\"\"" ++ x) = .err e := by
  have := bad_doc (S := S) (n := n + 1) (x := byte '"' :: byte '"' :: x) hk ⟨_, fail_cv_quoted fail_emptyString⟩
  simpa [show bytes "=\"\"" = [byte '=', byte '"', byte '"'] from rfl] using this

/-- A bracket or single quote inside a string is a syntax error. -/
theorem c93_bracket_violated (S : Std) (n : Nat) (k s x : Bytes) (b : UInt8) (hk : PathText k) (hs : StringText s)
    (hb : b = byte '[' ∨ b = byte ']' ∨ b = byte '\'') :
    ∃ e, parse (hocon S (n + 2)) (k ++ bytes "=\"" ++ s ++ b :: x) = .err e := by
  have hb' : b ∈ bytes "[]'" := by rcases hb with rfl | rfl | rfl <;> decide
  have := bad_doc (S := S) (n := n + 1) (x := byte '"' :: (s ++ b :: x)) hk ⟨_, fail_cv_quoted (fail_bracketString hs hb')⟩
  simpa [show bytes "=\"" = [byte '=', byte '"'] from rfl] using this

/-- Blanks and lines of comments at the beginning of a string are dropped. -/
theorem c93_leading_blanks_violated (S : Std) (n : Nat) (k b s : Bytes) (cs : List Bytes) (hk : PathText k)
    (hb : ∀ x ∈ b, x ∈ bytes " \t\r\n") (hc : ∀ c ∈ cs, CommentLine c) (hs : StringText s) :
    parse (hocon S (n + 2)) (k ++ bytes "=\"" ++ (b ++ commentLines cs) ++ s ++ bytes "\"\n") =
      .ok [.obj [(k, .str s)]] := by
  have h1 : Gap (b ++ commentLines cs) := ⟨b, cs, hb, hc, rfl⟩
  have h2 : Eats (softGrammar S (n + 1)).1 (byte '"' :: ((b ++ commentLines cs) ++ s) ++ [byte '"'] ++ bytes "\n") (.str s)
      (docText []) := by
    refine eats_cvSimple (noHead_cons.2 (by decide)) noHead_nil (noHead_cons.2 (by decide)) ?_
    have := eats_blankStrValue (S := S) (b2 := bytes "\n") (rest := []) h1 hs gap_line noHead_nil
    simpa [docText] using this
  have := hocon_line (S := S) (n := n + 1) (ds := []) hk (by simp [depthEntries]) trivial h2
  simpa [docText, valueEntries, configFold, get, insertNew, show bytes "\"\n" = [byte '"', byte '\n'] from rfl,
    show bytes "=\"" = [byte '=', byte '"'] from rfl] using this

/-- Any other string is taken literally: not empty, without quotes, backslashes, brackets and line ends, and not
beginning with a blank or the sign of a comment. -/
theorem c93_string_partial (S : Std) (n : Nat) (k s : Bytes) (hk : PathText k) (hs : StringText s) :
    parse (hocon S (n + 2)) (k ++ bytes "=\"" ++ s ++ bytes "\"\n") = .ok [.obj [(k, .str s)]] := by
  have := c93_leading_blanks_violated S n k [] s [] hk (by simp) (by simp) hs
  simpa [commentLines] using this

example : parse (hocon decDigits 2) (bytes "a=\"  x y\"\n") = .ok [.obj [(bytes "a", .str (bytes "x y"))]] :=
  c93_leading_blanks_violated decDigits 0 (bytes "a") (bytes "  ") (bytes "x y") []
    ⟨[bytes "a"], by simp, by simp [Segment]; decide, rfl⟩ (by decide) (by simp)
    ⟨by decide, by decide, by decide, by intro b hb; cases hb; decide⟩

/-! ## C94 Comments do not change the meaning -/

/-- Lines of comments in front of definitions and at the end, and comments behind the values on the same
line, do not change what is parsed. -/
theorem c94_comments_partial (S : Std) (n : Nat) (ds : List (Bytes × Lit)) (ns : List Notes) (hne : ds ≠ [])
    (hn : depthEntries ds ≤ n) (h : DocOk S.parseDecimal ds) (hns : NotesOk ns ds) :
    parse (hocon S (n + 1)) (noted ns ds) = parse (hocon S (n + 1)) (docText ds) := by
  rw [hocon_noted S n ds ns hne hn h hns, hocon_doc S n ds hne hn h]

/-- A document with a comment in front of the first definition and one behind it. -/
example : sampleDoc ≠ [] ∧ DocOk decDigits.parseDecimal sampleDoc ∧ NotesOk sampleNotes sampleDoc :=
  ⟨by simp [sampleDoc], sampleDoc_ok, sampleNotes_ok⟩

/-- Two lines of comments in front of a document are a syntax error, if the lines end as on Windows. -/
theorem c94_crlf_violated (S : Std) (n : Nat) (c1 c2 : Bytes) (ds : List (Bytes × Lit)) (h1 : CommentLine c1)
    (h2 : CommentLine c2) (h : DocOk S.parseDecimal ds) :
    ∃ e, parse (hocon S (n + 1)) (c1 ++ bytes "\r\n" ++ c2 ++ bytes "\r\n" ++ docText ds) = .err e := by
  have hq : NoHead (fun b => b = byte '"' ∨ b = byte '\'') (docText ds) := by
    rcases docText_head ds h with h' | ⟨k, r, hk, h', -⟩
    · rw [h']; exact noHead_nil
    · rw [h']
      obtain ⟨b, x, rfl, hb⟩ := pathText_head hk
      refine noHead_cons.2 ?_
      rintro (rfl | rfl) <;> revert hb <;> decide
  have := crlf_doc (S := S) (n := n) h1 h2 (docText_quiet ds h).1 hq
  simpa using this

end OniComb.Hocon
