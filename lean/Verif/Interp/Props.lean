import Verif.Interp.Model

/-!
# C55: the calls that set up an interpreter; C56: outputs
-/

namespace Verif.Interp

variable {Mod Dat Inp Qry Nod Bun : Type} (F : Front Mod Dat Inp Qry Nod Bun) (fs : Files)

/-! ## Specification: what each call contributes -/

/-- The value of a successful reading. -/
def good {α : Type} : Except (List Str) α → Option α
  | .ok a => some a
  | .error _ => none

/-- The module a call adds. -/
def moduleOf : Op Nod → Option Mod
  | .addModule n t => good (F.readModule n t)
  | .addModuleFile p => (fs p).bind fun t => good (F.readModule p t)
  | _ => none

/-- The document a call adds. -/
def dataOf : Op Nod → Option Dat
  | .addDataJson t => good (F.readData t)
  | .addDataFile p => (fs p).bind fun t => good (F.readData t)
  | .addData n => good (F.nodeData n)
  | _ => none

/-- The input a call sets. -/
def inputOf : Op Nod → Option Inp
  | .setInputJson t => good (F.readInput t)
  | .setInputTerm t => good (F.readTerm t)
  | .setInputFile p => (fs p).bind fun t => good (F.readInput t)
  | .setInput n => match F.kind n with
    | .json => good (F.nodeInput n)
    | .rego => some (F.termInput n)
    | .input => some (F.asInput n)
    | .other => none
  | _ => none

/-- The query a call sets. -/
def queryOf : Op Nod → Option Qry
  | .setQuery t => good (F.readQuery t)
  | _ => none

/-- The entry points a call sets. -/
def entryOf : Op Nod → Option (List Str)
  | .setEntrypoints ns => some ns
  | _ => none

/-- The last of the values, or a default. -/
def lastOr {α : Type} (d : α) (xs : List α) : α := xs.getLast?.getD d

theorem lastOr_cons {α : Type} (d a : α) (xs : List α) : lastOr d (a :: xs) = lastOr a xs := by
  cases xs with
  | nil => rfl
  | cons x xs => simp [lastOr, List.getLast?_cons]

/-! ## C55 -/

/-- **C55: a failing call changes nothing.** Every call that returns an error or throws
leaves the whole state as it was. -/
theorem C55_unchanged (s : State Mod Dat Inp Qry) (op : Op Nod) (h : (step F fs s op).2 ≠ .ok) :
    (step F fs s op).1 = s := by
  have hf : ∀ {α : Type} (r : Except (List Str) α) (f : α → State Mod Dat Inp Qry),
      (finish s r f).2 ≠ .ok → (finish s r f).1 = s := by
    intro α r f h
    cases r with
    | error e => rfl
    | ok a => exact absurd rfl h
  cases op with
  | addModuleFile p => 
    simp only [step] at h ⊢
    split at h
    · rfl
    · exact hf _ _ h
  | addDataFile p => 
    simp only [step] at h ⊢
    split at h
    · rfl
    · exact hf _ _ h
  | setInputFile p => 
    simp only [step] at h ⊢
    split at h
    · rfl
    · exact hf _ _ h
  | setInput n =>
    simp only [step, setInput] at h ⊢
    split at h
    · exact hf _ _ h
    · exact absurd rfl h
    · exact absurd rfl h
    · rfl
  | setEntrypoints ns => exact absurd rfl h
  | _ => exact hf _ _ h

/-- **C55: the state is what the successful calls contributed.** After any sequence of calls
the modules and documents are those read successfully, in order, and the input, the query
and the entry points are the last ones set successfully. -/
theorem C55_history (ops : List (Op Nod)) (s : State Mod Dat Inp Qry) :
    run F fs s ops = {
      modules := s.modules ++ ops.filterMap (moduleOf F fs)
      data := s.data ++ ops.filterMap (dataOf F fs)
      input := lastOr s.input (ops.filterMap (inputOf F fs))
      query := lastOr s.query (ops.filterMap (queryOf F))
      entrypoints := lastOr s.entrypoints (ops.filterMap entryOf) } := by
  induction ops generalizing s with
  | nil => simp [run, lastOr]
  | cons op ops ih =>
    rw [run, ih]
    have hg : ∀ {α : Type} (r : Except (List Str) α), (∃ e, r = .error e ∧ good r = none) ∨
        (∃ a, r = .ok a ∧ good r = some a) := by
      intro α r
      cases r with
      | error e => exact .inl ⟨e, rfl, rfl⟩
      | ok a => exact .inr ⟨a, rfl, rfl⟩
    cases op with
    | addModule n t =>
      rcases hg (F.readModule n t) with ⟨e, h, h'⟩ | ⟨e, h, h'⟩ <;>
        simp [step, finish, h, good, moduleOf, dataOf, inputOf, queryOf, entryOf, List.filterMap_cons]
    | addModuleFile p =>
      cases hp : fs p with
      | none => simp [step, hp, moduleOf, dataOf, inputOf, queryOf, entryOf, List.filterMap_cons]
      | some t =>
        rcases hg (F.readModule p t) with ⟨e, h, h'⟩ | ⟨e, h, h'⟩ <;>
          simp [step, finish, h, good, hp, moduleOf, dataOf, inputOf, queryOf, entryOf, List.filterMap_cons]
    | addDataJson t =>
      rcases hg (F.readData t) with ⟨e, h, h'⟩ | ⟨e, h, h'⟩ <;>
        simp [step, finish, h, good, moduleOf, dataOf, inputOf, queryOf, entryOf, List.filterMap_cons]
    | addData n =>
      rcases hg (F.nodeData n) with ⟨e, h, h'⟩ | ⟨e, h, h'⟩ <;>
        simp [step, finish, h, good, moduleOf, dataOf, inputOf, queryOf, entryOf, List.filterMap_cons]
    | addDataFile p =>
      cases hp : fs p with
      | none => simp [step, hp, moduleOf, dataOf, inputOf, queryOf, entryOf, List.filterMap_cons]
      | some t =>
        rcases hg (F.readData t) with ⟨e, h, h'⟩ | ⟨e, h, h'⟩ <;>
          simp [step, finish, h, good, hp, moduleOf, dataOf, inputOf, queryOf, entryOf, List.filterMap_cons]
    | setInputTerm t =>
      rcases hg (F.readTerm t) with ⟨e, h, h'⟩ | ⟨e, h, h'⟩ <;>
        simp [step, finish, h, good, moduleOf, dataOf, inputOf, queryOf, entryOf, List.filterMap_cons, lastOr_cons]
    | setInputJson t =>
      rcases hg (F.readInput t) with ⟨e, h, h'⟩ | ⟨e, h, h'⟩ <;>
        simp [step, finish, h, good, moduleOf, dataOf, inputOf, queryOf, entryOf, List.filterMap_cons, lastOr_cons]
    | setInputFile p =>
      cases hp : fs p with
      | none => simp [step, hp, moduleOf, dataOf, inputOf, queryOf, entryOf, List.filterMap_cons]
      | some t =>
        rcases hg (F.readInput t) with ⟨e, h, h'⟩ | ⟨e, h, h'⟩ <;>
          simp [step, finish, h, good, hp, moduleOf, dataOf, inputOf, queryOf, entryOf, List.filterMap_cons, lastOr_cons]
    | setInput n =>
      cases hk : F.kind n with
      | json =>
        rcases hg (F.nodeInput n) with ⟨e, h, h'⟩ | ⟨e, h, h'⟩ <;>
          simp [step, setInput, hk, finish, h, good, moduleOf, dataOf, inputOf, queryOf, entryOf,
            List.filterMap_cons, lastOr_cons]
      | _ =>
        simp [step, setInput, hk, moduleOf, dataOf, inputOf, queryOf, entryOf, List.filterMap_cons, lastOr_cons]
    | setQuery t =>
      rcases hg (F.readQuery t) with ⟨e, h, h'⟩ | ⟨e, h, h'⟩ <;>
        simp [step, finish, h, good, moduleOf, dataOf, inputOf, queryOf, entryOf, List.filterMap_cons, lastOr_cons]
    | setEntrypoints ns =>
      simp [step, moduleOf, dataOf, inputOf, queryOf, entryOf, List.filterMap_cons, lastOr_cons]

/-- **C55: a call reports success exactly when it contributed something.** Otherwise it
returns the errors of the reader, or throws when the file does not exist. -/
theorem C55_reported (s : State Mod Dat Inp Qry) (op : Op Nod) :
    (step F fs s op).2 = .ok ↔ (moduleOf F fs op).isSome ∨ (dataOf F fs op).isSome ∨
      (inputOf F fs op).isSome ∨ (queryOf F op).isSome ∨ (entryOf op).isSome := by
  have hf : ∀ {α : Type} (r : Except (List Str) α) (f : α → State Mod Dat Inp Qry),
      (finish s r f).2 = .ok ↔ (good r).isSome := by
    intro α r f
    cases r <;> simp [finish, good]
  cases op with
  | addModuleFile p =>
    cases hp : fs p with
    | none => simp [step, hp, moduleOf, dataOf, inputOf, queryOf, entryOf]
    | some t => simp [step, hp, hf, moduleOf, dataOf, inputOf, queryOf, entryOf]
  | addDataFile p =>
    cases hp : fs p with
    | none => simp [step, hp, moduleOf, dataOf, inputOf, queryOf, entryOf]
    | some t => simp [step, hp, hf, moduleOf, dataOf, inputOf, queryOf, entryOf]
  | setInputFile p =>
    cases hp : fs p with
    | none => simp [step, hp, moduleOf, dataOf, inputOf, queryOf, entryOf]
    | some t => simp [step, hp, hf, moduleOf, dataOf, inputOf, queryOf, entryOf]
  | setInput n =>
    cases hk : F.kind n <;>
      simp [step, setInput, hk, hf, moduleOf, dataOf, inputOf, queryOf, entryOf]
  | _ => simp [step, hf, moduleOf, dataOf, inputOf, queryOf, entryOf]

/-- **C55: the errors of the reader are returned as they are.** -/
theorem C55_errors (s : State Mod Dat Inp Qry) (e : List Str) :
    (∀ n t, F.readModule n t = .error e → (step F fs s (.addModule n t)).2 = .errors e) ∧
    (∀ t, F.readData t = .error e → (step F fs s (.addDataJson t)).2 = .errors e) ∧
    (∀ t, F.readInput t = .error e → (step F fs s (.setInputJson t)).2 = .errors e) ∧
    (∀ t, F.readTerm t = .error e → (step F fs s (.setInputTerm t)).2 = .errors e) ∧
    (∀ t, F.readQuery t = .error e → (step F fs s (.setQuery t)).2 = .errors e) ∧
    (∀ p, fs p = none → (step F fs s (.addModuleFile p)).2 = .throws ∧
      (step F fs s (.addDataFile p)).2 = .throws ∧ (step F fs s (.setInputFile p)).2 = .throws) := by
  refine ⟨?_, ?_, ?_, ?_, ?_, ?_⟩ <;> intros <;> simp_all [step, finish]

/-- **C55: failing calls do not matter.** Two sequences of calls that differ only in calls
that fail leave the same state, and so give the same result to every query. -/
theorem C55_failed_calls (ops : List (Op Nod)) (s : State Mod Dat Inp Qry) :
    run F fs s (ops.filter fun op => ((moduleOf F fs op).isSome || (dataOf F fs op).isSome ||
      (inputOf F fs op).isSome || (queryOf F op).isSome || (entryOf op).isSome)) =
    run F fs s ops := by
  have hfm : ∀ {α : Type} (g : Op Nod → Option α) (p : Op Nod → Bool),
      (∀ op, (g op).isSome → p op = true) → (ops.filter p).filterMap g = ops.filterMap g := by
    intro α g p h
    induction ops with
    | nil => rfl
    | cons op ops ih =>
      rw [List.filter_cons]
      split
      · rw [List.filterMap_cons, List.filterMap_cons, ih]
      · next hp =>
        have : g op = none := by
          cases hgo : g op with
          | none => rfl
          | some a => exact absurd (h op (by rw [hgo]; rfl)) hp
        rw [ih, List.filterMap_cons, this]
  rw [C55_history, C55_history, hfm (moduleOf F fs) _ (by intro op h; simp [h]),
    hfm (dataOf F fs) _ (by intro op h; simp [h]), hfm (inputOf F fs) _ (by intro op h; simp [h]),
    hfm (queryOf F) _ (by intro op h; simp [h]), hfm entryOf _ (by intro op h; simp [h])]

/-- **C55, partial: a query given as text.** If the text can be parsed, the result is that of
the parsed query on the state, and only the query is replaced.

Missing: a text that cannot be parsed (`C55_query_wrong`). -/
theorem C55_query_partial (s : State Mod Dat Inp Qry) (t : Str) (q : Qry)
    (h : F.readQuery t = .ok q) :
    queryText F fs s t = ({ s with query := q }, queryNode F { s with query := q }) := by
  simp [queryText, step, finish, h]

/-- **C55 is wrong of queries that cannot be parsed.** The text is ignored: the result is
that of the previous query, with no error of the reader in it. -/
theorem C55_query_wrong (s : State Mod Dat Inp Qry) (t : Str) (e : List Str)
    (h : F.readQuery t = .error e) : queryText F fs s t = (s, queryNode F s) := by
  simp [queryText, step, finish, h]

/-- An interpreter over trivial parts: a text that starts with `!` cannot be parsed, a query
returns the texts it is made of. -/
def exFront : Front Str Str Str Str Unit Str where
  readModule _ t := if t.head? = some '!' then .error ["e".toList] else .ok t
  readData t := if t.head? = some '!' then .error ["e".toList] else .ok t
  nodeData _ := .error []
  readInput t := if t.head? = some '!' then .error ["e".toList] else .ok t
  readTerm t := if t.head? = some '!' then .error ["e".toList] else .ok t
  kind _ := .other
  nodeInput _ := .error []
  termInput _ := []
  asInput _ := []
  readQuery t := if t.head? = some '!' then .error ["e".toList] else .ok t
  noInput := []
  noQuery := []
  compile _ ds ms q := .ok (ds.flatten ++ ms.flatten ++ q)
  runQuery b i := .ok (.results [([.leaf (.str (b ++ i))], [])])
  runEntrypoint b _ i := .ok (.results [([.leaf (.str (b ++ i))], [])])

/-- The query `!` after the query `q` gives the result of `q`. -/
theorem C55_query_wrong_witness :
    (queryText exFront (fun _ => none) (run exFront (fun _ => none) (init exFront)
      [.setQuery ['q'], .setInputJson ['i'], .setInputJson ['!', 'x']]) ['!']).2 =
    .ok (.results [([.leaf (.str ['q', 'i'])], [])]) := by
  rfl

/-! ## C56 -/

/-- **C56, partial: `ok()`.** When the virtual machine returned normally, the output of a
query is OK exactly when it is not a sequence of errors, and the errors reported are those
of the machine.

Missing: evaluations that throw (`C56_exception_wrong`). -/
theorem C56_ok_partial (o : VM.Output) : ∃ r, queryBundle (.ok o) = .ok r ∧
    (ok r = true ↔ ∀ e, o ≠ .errors e) ∧ (∀ e, o = .errors e → errors r = .value e) ∧
    (ok r = true → errors r = .value []) := by
  refine ⟨ofVM o, rfl, ?_, ?_, ?_⟩
  · cases o <;> simp [ofVM, ok]
  · rintro e rfl; rfl
  · cases o <;> simp [ofVM, ok, errors]

/-- **C56: compilation errors.** They make the output not OK and are its errors. -/
theorem C56_compile (s : State Mod Dat Inp Qry) (e : List Str)
    (h : F.compile [] s.data s.modules s.query = .error e) :
    queryNode F s = .ok (.errorSeq e) ∧ ok (.errorSeq e) = false ∧
    errors (.errorSeq e) = .value e := by
  refine ⟨?_, rfl, rfl⟩
  unfold queryNode
  rw [h]

/-- **C56 is wrong of evaluations that throw.** When the evaluation ends with an exception,
the output is OK, has no errors, is printed as a result and claims to have three results; a
debug build aborts. -/
theorem C56_exception_wrong :
    queryBundle (.error .throws) = .ok .error ∧ ok .error = true ∧ errors .error = .value [] ∧
    size .error = .value 3 ∧ printsErrors .error = .value false ∧ mkOutput true .error = .abort :=
  ⟨rfl, rfl, rfl, rfl, rfl, rfl⟩

/-- **C56: an undefined query in a debug build.** The constructor of the output fails an
assertion. -/
theorem C56_undefined_wrong : queryBundle (.ok .undefined) = .ok .undefined ∧
    mkOutput true .undefined = .abort ∧ mkOutput false .undefined = .value .undefined :=
  ⟨rfl, rfl, rfl⟩

/-- **C56: `errors()` of a null node.** -/
theorem C56_null_wrong : ok .null = false ∧ errors .null = .ub ∧ size .null = .ub :=
  ⟨rfl, rfl, rfl⟩

/-- **C56: expressions.** For an output of the machine and every index: the expressions of
the result at that index; an `out_of_range` exception when there is none; a `logic_error`
when the output is not OK. -/
theorem C56_expressions (o : VM.Output) (i : Nat) :
    (∀ rs, o = .results rs → ∀ r, rs[i]? = some r → expressionsAt (ofVM o) i = .value r.1) ∧
    (∀ rs, o = .results rs → rs.length ≤ i → expressionsAt (ofVM o) i = .outOfRange) ∧
    (o = .undefined → expressionsAt (ofVM o) i = .outOfRange) ∧
    (∀ e, o = .errors e → expressionsAt (ofVM o) i = .logicError) := by
  refine ⟨?_, ?_, ?_, ?_⟩
  · rintro rs rfl r h
    simp [ofVM, expressionsAt, resultAt, h]
  · rintro rs rfl h
    simp [ofVM, expressionsAt, resultAt, List.getElem?_eq_none h]
  · rintro rfl; rfl
  · rintro e rfl; rfl

/-- **C56: the size.** For an output of the machine, the number of its results, and of its
errors when it is not OK. -/
theorem C56_size (o : VM.Output) :
    (∀ rs, o = .results rs → size (ofVM o) = .value rs.length) ∧
    (∀ e, o = .errors e → size (ofVM o) = .value e.length) ∧
    (o = .undefined → size (ofVM o) = .value 0) ∧
    (∀ n, size (ofVM o) = .value n → ok (ofVM o) = true → ∀ i,
      (∃ xs, expressionsAt (ofVM o) i = .value xs) ↔ i < n) := by
  refine ⟨?_, ?_, ?_, ?_⟩
  · rintro rs rfl; rfl
  · rintro e rfl; rfl
  · rintro rfl; rfl
  · intro n hn hok i
    cases o with
    | errors e => cases hok
    | undefined => cases hn; simp [ofVM, expressionsAt, resultAt]
    | results rs =>
      cases hn
      simp only [ofVM, expressionsAt, resultAt]
      by_cases h : i < rs.length
      · rw [List.getElem?_eq_getElem h]
        exact ⟨fun _ => h, fun _ => ⟨_, rfl⟩⟩
      · rw [List.getElem?_eq_none (by omega)]
        exact ⟨fun ⟨xs, hx⟩ => (by cases hx), fun h' => absurd h' h⟩

theorem findBinding_some {name : Str} {bs : List (Str × Val)} {v : Val}
    (h : findBinding name bs = some v) : (name, v) ∈ bs := by
  induction bs with
  | nil => cases h
  | cons b bs ih =>
    obtain ⟨n, w⟩ := b
    rw [findBinding] at h
    split at h
    · next hn => cases h; subst hn; exact List.mem_cons_self
    · exact List.mem_cons_of_mem _ (ih h)

theorem findBinding_none {name : Str} {bs : List (Str × Val)} :
    findBinding name bs = none ↔ ∀ v, (name, v) ∉ bs := by
  induction bs with
  | nil => simp [findBinding]
  | cons b bs ih =>
    obtain ⟨n, w⟩ := b
    rw [findBinding]
    split
    · next hn => subst hn; exact ⟨fun h => by (cases h), fun h => absurd List.mem_cons_self (h w)⟩
    · next hn =>
      rw [ih]
      constructor
      · intro h v hm
        rcases List.mem_cons.mp hm with he | hm
        · cases he; exact hn rfl
        · exact h v hm
      · exact fun h v hm => h v (List.mem_cons_of_mem _ hm)

/-- **C56: bindings.** For an output of the machine, every index and every name: the value
bound to the name in the result at that index; an `invalid_argument` exception exactly when
the result binds no such name; an `out_of_range` exception when there is no such result; a
`logic_error` when the output is not OK. Names of a result are different from each other. -/
theorem C56_bindings (o : VM.Output) (i : Nat) (name : Str) :
    (∀ rs, o = .results rs → ∀ r, rs[i]? = some r → (r.2.map (·.1)).Nodup →
      (∀ v, bindingAt (ofVM o) i name = .value v ↔ (name, v) ∈ r.2) ∧
      (bindingAt (ofVM o) i name = .invalidArgument ↔ ∀ v, (name, v) ∉ r.2)) ∧
    (∀ rs, o = .results rs → rs.length ≤ i → bindingAt (ofVM o) i name = .outOfRange) ∧
    (o = .undefined → bindingAt (ofVM o) i name = .outOfRange) ∧
    (∀ e, o = .errors e → bindingAt (ofVM o) i name = .logicError) := by
  refine ⟨?_, ?_, ?_, ?_⟩
  · rintro rs rfl r h hn
    have hb : bindingAt (ofVM (.results rs)) i name = match findBinding name r.2 with
        | some v => .value v
        | none => .invalidArgument := by
      simp only [ofVM, bindingAt, resultAt, h]
      cases findBinding name r.2 <;> rfl
    rw [hb]
    cases hf : findBinding name r.2 with
    | none =>
      have := findBinding_none.mp hf
      exact ⟨fun v => ⟨fun h => by (cases h), fun h => absurd h (this v)⟩, ⟨fun _ => this, fun _ => rfl⟩⟩
    | some w =>
      have hm := findBinding_some hf
      refine ⟨fun v => ⟨fun h => (by cases h; exact hm), fun h => ?_⟩,
        ⟨fun h => by (cases h), fun h => absurd hm (h w)⟩⟩
      have : v = w := by
        clear hb hf
        generalize r.2 = bs at hn hm h
        induction bs with
        | nil => cases h
        | cons b bs ih =>
          rw [List.map_cons, List.nodup_cons] at hn
          rcases List.mem_cons.mp h with hb | h1 <;> rcases List.mem_cons.mp hm with he | h2
          · rw [← hb] at he; cases he; rfl
          · rw [← hb] at hn; exact absurd (List.mem_map.mpr ⟨(name, w), h2, rfl⟩) hn.1
          · subst he; exact absurd (List.mem_map.mpr ⟨(name, v), h1, rfl⟩) hn.1
          · exact ih hn.2 h2 h1
      rw [this]
  · rintro rs rfl h
    simp [ofVM, bindingAt, resultAt, List.getElem?_eq_none h]
  · rintro rfl; rfl
  · rintro e rfl; rfl

/-- **C56: a failing query has an error.** The sequence of errors the machine returns is
never empty. -/
theorem C56_errors_nonempty {σ : Type} (C : VM.Ctx σ) (heap : List VM.Cell)
    (data input : Option Nat) (bi : σ) (e : List Str) (heap' : List VM.Cell) (bi' : σ)
    (h : VM.runQuery C heap data input bi = .ok (.errors e, heap', bi')) : e ≠ [] := by
  unfold VM.runQuery at h
  split at h
  · cases h; simp
  · next i _ =>
    cases hx : VM.execPlan C heap data input bi i with
    | error st => rw [hx] at h; cases h
    | ok s =>
      rw [hx] at h
      simp only [bind, Except.bind, pure, Except.pure] at h
      split at h
      · next he =>
        injection h with h
        injection h with h1 h2
        injection h1 with h1
        subst h1
        intro hnil
        rw [hnil] at he
        cases he
      · split at h
        · cases h
        · split at h
          · cases h
          · split at h
            · cases h
            · split at h
              · cases h; simp
              · cases h

/-! ## Cases that meet the hypotheses -/

example : run exFront (fun _ => none) (init exFront)
    [.addModule [] ['m'], .addModule [] ['!'], .addModuleFile ['p'], .setInputJson ['i'],
      .setInputJson ['!'], .setQuery ['q']] =
    ⟨[['m']], [], ['i'], ['q'], []⟩ := rfl

example : bindingAt (ofVM (.results [([], [(['x'], .leaf .null)])])) 0 ['x'] = .value (.leaf .null) ∧
    bindingAt (ofVM (.results [([], [(['x'], .leaf .null)])])) 0 ['y'] = .invalidArgument ∧
    bindingAt (ofVM (.results [([], [(['x'], .leaf .null)])])) 1 ['x'] = .outOfRange := by decide

end Verif.Interp
