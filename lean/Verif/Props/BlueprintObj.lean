import Verif.Model.BlueprintObj
import Mathlib.Data.List.Basic

/-!
# C153: histories of calls on blueprints
-/

namespace Verif.Pipeline
variable {V D : Type} [Inhabited D]

namespace Spec

/-- The calls a program makes on object `o`, through whatever variable, in order. -/
def calls (cs : Cases) (o : Nat) : World V D → List (Stmt V D) → List (Call V D)
  | _, [] => []
  | w, .call y x c :: rest =>
    if w.bvar x = some o then c :: calls cs o (w.step cs (.call y x c)) rest else calls cs o (w.step cs (.call y x c)) rest
  | w, s :: rest => calls cs o (w.step cs s) rest

/-- `b'` results from `b` by chaining calls, each of which returns. -/
inductive Chained : Blueprint V D → List (Call V D) → Blueprint V D → Prop
  | nil (b) : Chained b [] b
  | cons {b c l b'} : (b.run c).1 = true → Chained (b.run c).2 l b' → Chained b (c :: l) b'

/-- `one_hot_encode` asked to drop columns that `drop` does not accept. -/
def HalfDone : Call V D → Prop
  | .oneHot _ _ excl dropCols => excl = none ∧ dropCols = true
  | _ => False

/-- A statement that sets the flags of pipeline `k`. -/
def Touches (k : Nat) (w : World V D) : Stmt V D → Prop
  | .ensure _ p _ _ => w.pvar p = some k
  | _ => False

/-- No statement of a program sets the flags of pipeline `k`. -/
def Untouched (cs : Cases) (k : Nat) : World V D → List (Stmt V D) → Prop
  | _, [] => True
  | w, s :: rest => ¬ Touches k w s ∧ Untouched cs k (w.step cs s) rest

end Spec

/-- The object without its steps: what no method changes. -/
structure SameBase (b b' : Blueprint V D) : Prop where
  df : b'.df = b.df
  name : b'.name = b.name
  target : b'.target = b.target
  featIn : b'.featIn = b.featIn
  excl : b'.exclude = b.exclude
  lower : b'.lowercase = b.lowercase
  upper : b'.uppercase = b.uppercase

omit [Inhabited D] in
theorem SameBase.refl (b : Blueprint V D) : SameBase b b := ⟨rfl, rfl, rfl, rfl, rfl, rfl, rfl⟩

omit [Inhabited D] in
theorem SameBase.trans {a b c : Blueprint V D} (h : SameBase a b) (h' : SameBase b c) : SameBase a c :=
  ⟨h'.df.trans h.df, h'.name.trans h.name, h'.target.trans h.target, h'.featIn.trans h.featIn, h'.excl.trans h.excl,
    h'.lower.trans h.lower, h'.upper.trans h.upper⟩

omit [Inhabited D] in
theorem add_base (b : Blueprint V D) (s : BStep V D) : SameBase b (b.add s) := ⟨rfl, rfl, rfl, rfl, rfl, rfl, rfl⟩

omit [Inhabited D] in
theorem tryAdd_spec (b : Blueprint V D) (s : Option (BStep V D)) :
    ∃ l, SameBase b (b.tryAdd s).2 ∧ (b.tryAdd s).2.steps = b.steps ++ l ∧ ((b.tryAdd s).1 = true ↔ l ≠ []) := by
  cases s with
  | none => exact ⟨[], .refl b, by simp [Blueprint.tryAdd], by simp [Blueprint.tryAdd]⟩
  | some s => exact ⟨[s], add_base b s, rfl, by simp [Blueprint.tryAdd]⟩

/-- **C153a.**  A method call only ever appends to the steps; the frame, name, target, expected columns and exclusions stay.  A
call that returns appends at least one step. -/
theorem call_appends (b : Blueprint V D) (c : Call V D) :
    ∃ l, SameBase b (b.run c).2 ∧ (b.run c).2.steps = b.steps ++ l ∧ ((b.run c).1 = true → l ≠ []) := by
  have wrap : ∀ s, ∃ l, SameBase b (b.tryAdd s).2 ∧ (b.tryAdd s).2.steps = b.steps ++ l ∧ ((b.tryAdd s).1 = true → l ≠ []) := by
    intro s
    obtain ⟨l, h1, h2, h3⟩ := tryAdd_spec b s
    exact ⟨l, h1, h2, h3.1⟩
  have one : ∀ s : BStep V D, ∃ l, SameBase b (b.add s) ∧ (b.add s).steps = b.steps ++ l ∧ (true = true → l ≠ []) :=
    fun s => ⟨[s], add_base b s, rfl, by simp⟩
  have two : ∀ s t : BStep V D, ∃ l, SameBase b ((b.add s).add t) ∧ ((b.add s).add t).steps = b.steps ++ l ∧
      (true = true → l ≠ []) := fun s t => ⟨[s, t], (add_base b s).trans (add_base _ t), by simp [Blueprint.add], by simp⟩
  cases c with
  | filter by' => exact wrap _
  | sqlTransform r => exact one _
  | convert p d g => exact one _
  | fit func cols => exact one _
  | condImpute func => exact one _
  | fitTarget func cols t => exact wrap _
  | select es => exact wrap _
  | polynomial es => exact wrap _
  | drop cols => exact wrap _
  | rename m => exact two _ _
  | oneHot func cols excl dropCols =>
    cases dropCols with
    | false => exact one _
    | true =>
      cases excl with
      | none => exact ⟨_, add_base b _, rfl, fun h => by cases h⟩
      | some e => exact two _ _
  | rankHot es col dropCols =>
    cases es with
    | none => exact ⟨[], .refl b, by simp [Blueprint.run], by simp [Blueprint.run]⟩
    | some es =>
      cases dropCols with
      | false => exact one _
      | true => exact two _ _
  | appendExpr es sel => exact wrap _
  | appendFit func wants given cols =>
    cases wants with
    | true => exact wrap _
    | false => exact one _

/-- **C153b** (partial: `one_hot_encode` with columns `drop` refuses is the exception, see `one_hot_half_done`).  A call that raises
leaves the blueprint as it was. -/
theorem failed_call_partial (b : Blueprint V D) (c : Call V D) (h : (b.run c).1 = false) (hc : ¬ Spec.HalfDone c) :
    (b.run c).2 = b := by
  have wrap : ∀ s, (b.tryAdd s).1 = false → (b.tryAdd s).2 = b := by
    intro s h
    cases s with
    | none => rfl
    | some s => cases h
  cases c with
  | filter by' => exact wrap _ h
  | sqlTransform r => cases h
  | convert p d g => cases h
  | fit func cols => cases h
  | condImpute func => cases h
  | fitTarget func cols t => exact wrap _ h
  | select es => exact wrap _ h
  | polynomial es => exact wrap _ h
  | drop cols => exact wrap _ h
  | rename m => cases h
  | oneHot func cols excl dropCols =>
    cases dropCols with
    | false => cases h
    | true =>
      cases excl with
      | none => exact absurd ⟨rfl, rfl⟩ hc
      | some e => cases h
  | rankHot es col dropCols =>
    cases es with
    | none => rfl
    | some es => cases dropCols <;> cases h
  | appendExpr es sel => exact wrap _ h
  | appendFit func wants given cols =>
    cases wants with
    | true => exact wrap _ h
    | false => cases h

/-- **C153, disagreement.**  `one_hot_encode(cols)` with an expression or selector that `pl.all().exclude` does not take raises with
the encoding already recorded: the blueprint has one step more. -/
theorem one_hot_half_done (b : Blueprint V D) (func : Frame V D → List String → Option (List (Ex V D))) (cols : Sel D) :
    (b.run (.oneHot func cols none true)).1 = false ∧
      (b.run (.oneHot func cols none true)).2.steps = b.steps ++ [.fit { func, cols := some cols, exclude := b.exclude }] :=
  ⟨rfl, rfl⟩

/-- Whether a call returns depends on the call and on whether the blueprint has a target, not on the steps. -/
theorem run_returns (b b' : Blueprint V D) (h : SameBase b b') (c : Call V D) : (b'.run c).1 = (b.run c).1 := by
  have ht : ∀ g, b'.getTarget g = b.getTarget g := by
    intro g
    cases g with
    | none => exact h.target
    | some t => rfl
  have add : ∀ s s' : Option (BStep V D), s.isSome = s'.isSome → (b'.tryAdd s).1 = (b.tryAdd s').1 := by
    intro s s' e
    cases s <;> cases s' <;> simp_all [Blueprint.tryAdd]
  cases c with
  | filter by' => exact add _ _ rfl
  | sqlTransform r => rfl
  | convert p d g => rfl
  | fit func cols => rfl
  | condImpute func => rfl
  | fitTarget func cols t => exact add _ _ (by rw [ht]; simp)
  | select es => exact add _ _ rfl
  | polynomial es => exact add _ _ rfl
  | drop cols => exact add _ _ rfl
  | rename m => rfl
  | oneHot func cols excl dropCols => cases dropCols <;> cases excl <;> rfl
  | rankHot es col dropCols => cases es <;> cases dropCols <;> rfl
  | appendExpr es sel => exact add _ _ rfl
  | appendFit func wants given cols =>
    cases wants with
    | true => exact add _ _ (by rw [ht]; simp)
    | false => rfl

theorem step_bps (cs : Cases) (w : World V D) (s : Stmt V D) (o : Nat) (b : Blueprint V D) (hb : w.bps[o]? = some b) :
    (w.step cs s).bps[o]? = some (match s with
      | .call _ x c => if w.bvar x = some o then (b.run c).2 else b
      | _ => b) := by
  have ho : o < w.bps.length := (List.getElem?_eq_some_iff.1 hb).1
  cases s with
  | new x df name target excl lower upper =>
    simp only [World.step]
    split
    · exact hb
    · simp only; rw [List.getElem?_append_left ho, hb]
  | call y x c =>
    simp only [World.step]
    split
    · rename_i hx; rw [if_neg (by simp [hx])]; exact hb
    · rename_i o' hx
      split
      · rename_i hn
        rw [if_neg]
        · exact hb
        · rw [hx]; intro e; cases e; rw [hb] at hn; cases hn
      · rename_i b' hb'
        simp only
        by_cases e : o' = o
        · subst e
          rw [hb] at hb'
          cases hb'
          rw [if_pos hx, List.getElem?_set_self ho]
        · rw [if_neg (by rw [hx]; simpa using e), List.getElem?_set_ne e, hb]
  | assign y x =>
    simp only [World.step]
    split <;> exact hb
  | materialize p x =>
    simp only [World.step]
    split <;> exact hb
  | ensure q p i o' =>
    simp only [World.step]
    split <;> exact hb

/-- **C153c.**  After any program, a blueprint object is what chaining the calls made on it gives, in the order of the program and
whichever variables were used; calls that raised count for nothing, and calls on other blueprints, `materialize`, assignments
and pipelines do not matter.  (Calls of `one_hot_encode` that `one_hot_half_done` is about are excluded.) -/
theorem history_partial (cs : Cases) (prog : List (Stmt V D)) : ∀ (w : World V D) (o : Nat) (b : Blueprint V D),
    w.bps[o]? = some b → (∀ c ∈ Spec.calls cs o w prog, ¬ Spec.HalfDone c) →
    ∃ b', (w.exec cs prog).bps[o]? = some b' ∧
      Spec.Chained b ((Spec.calls cs o w prog).filter fun c => (b.run c).1) b' := by
  induction prog with
  | nil => intro w o b hb _; exact ⟨b, hb, .nil b⟩
  | cons s prog ih =>
    intro w o b hb hh
    have hs := step_bps cs w s o b hb
    have other : (∀ y x c, s = .call y x c → w.bvar x ≠ some o) → Spec.calls cs o w (s :: prog) = Spec.calls cs o (w.step cs s) prog ∧
        (w.step cs s).bps[o]? = some b := by
      intro hne
      cases s with
      | call y x c =>
        have := hne y x c rfl
        simp only [if_neg this] at hs
        exact ⟨by rw [Spec.calls, if_neg this], hs⟩
      | _ => exact ⟨rfl, hs⟩
    by_cases hc : ∃ y x c, s = .call y x c ∧ w.bvar x = some o
    · obtain ⟨y, x, c, rfl, hx⟩ := hc
      simp only [if_pos hx] at hs
      rw [Spec.calls, if_pos hx] at hh ⊢
      obtain ⟨b', h1, h2⟩ := ih _ o _ hs (fun c' hc' => hh c' (List.mem_cons_of_mem _ hc'))
      obtain ⟨l, base, -, -⟩ := call_appends b c
      have hf : ((Spec.calls cs o (w.step cs (.call y x c)) prog).filter fun c' => ((b.run c).2.run c').1) =
          (Spec.calls cs o (w.step cs (.call y x c)) prog).filter fun c' => (b.run c').1 :=
        List.filter_congr fun c' _ => run_returns b _ base c'
      rw [hf] at h2
      refine ⟨b', h1, ?_⟩
      rw [List.filter_cons]
      cases hr : (b.run c).1 with
      | true => rw [if_pos rfl]; exact .cons hr h2
      | false =>
        rw [if_neg (by decide)]
        rwa [failed_call_partial b c hr (hh c (by simp))] at h2
    · obtain ⟨e1, e2⟩ := other (fun y x c e hx => hc ⟨y, x, c, e, hx⟩)
      rw [e1] at hh ⊢
      exact ih _ o b e2 hh

theorem step_pipes (cs : Cases) (w : World V D) (s : Stmt V D) (k : Nat) (p : Pipe (Step V D)) (hp : w.pipes[k]? = some p) :
    (∃ i o, (w.step cs s).pipes[k]? = some (p.ensureIo i o)) ∧ (¬ Spec.Touches k w s → (w.step cs s).pipes[k]? = some p) := by
  have self : p = p.ensureIo p.ensureIn p.ensureOut := rfl
  have hk : k < w.pipes.length := (List.getElem?_eq_some_iff.1 hp).1
  have same : ∀ w' : World V D, w'.pipes[k]? = some p →
      (∃ i o, w'.pipes[k]? = some (p.ensureIo i o)) ∧ (¬ Spec.Touches k w s → w'.pipes[k]? = some p) :=
    fun w' h => ⟨⟨p.ensureIn, p.ensureOut, h⟩, fun _ => h⟩
  cases s with
  | new x df name target excl lower upper =>
    refine same _ ?_
    simp only [World.step]
    split <;> exact hp
  | call y x c =>
    refine same _ ?_
    simp only [World.step]
    split
    · exact hp
    · split <;> exact hp
  | assign y x =>
    refine same _ ?_
    simp only [World.step]
    split <;> exact hp
  | materialize q x =>
    refine same _ ?_
    simp only [World.step]
    split
    · exact hp
    · simp only; rw [List.getElem?_append_left hk, hp]
  | ensure q v i o =>
    simp only [World.step]
    split
    · exact same _ hp
    · rename_i k' hk'
      simp only [List.getElem?_modify, hp]
      by_cases e : k' = k
      · refine ⟨⟨i, o, by simp [e]⟩, fun h => absurd ?_ h⟩
        rw [Spec.Touches, hk', e]
      · exact ⟨⟨p.ensureIn, p.ensureOut, by simp [e]; rfl⟩, fun _ => by simp [e]⟩

/-- **C153d.**  A fitted pipeline is a snapshot: whatever is done afterwards with the blueprint it came from, or with anything else,
its steps, names and target stay; only `ensure_features_io` on that very pipeline changes its two flags. -/
theorem pipeline_snapshot (cs : Cases) (prog : List (Stmt V D)) : ∀ (w : World V D) (k : Nat) (p : Pipe (Step V D)),
    w.pipes[k]? = some p → (∃ i o, (w.exec cs prog).pipes[k]? = some (p.ensureIo i o)) ∧
      (Spec.Untouched cs k w prog → (w.exec cs prog).pipes[k]? = some p) := by
  induction prog with
  | nil => intro w k p hp; exact ⟨⟨p.ensureIn, p.ensureOut, hp⟩, fun _ => hp⟩
  | cons s prog ih =>
    intro w k p hp
    obtain ⟨⟨i, o, h1⟩, h2⟩ := step_pipes cs w s k p hp
    constructor
    · obtain ⟨⟨i', o', h3⟩, -⟩ := ih _ k _ h1
      exact ⟨i', o', h3⟩
    · intro hu
      exact (ih _ k p (h2 hu.1)).2 hu.2

omit [Inhabited D] in
theorem loop_append (l : List (BStep V D)) : ∀ (s : List (BStep V D)) (ts : List (Step V D)) (f : Frame V D),
    materializeLoop (s ++ l) ts f = (materializeLoop s ts f).bind fun r => materializeLoop l r.1 r.2 := by
  intro s
  induction s with
  | nil => intro ts f; rfl
  | cons a s ih =>
    intro ts f
    cases a with
    | fit a =>
      simp only [List.cons_append, materializeLoop]
      cases a.fit f with
      | none => rfl
      | some es =>
        simp only [Option.bind_some]
        cases withColumns es f with
        | none => rfl
        | some f' => exact ih _ _
    | step a =>
      simp only [List.cons_append, materializeLoop]
      cases a.apply f with
      | none => rfl
      | some f' => exact ih _ _

omit [Inhabited D] in
theorem loop_prefix : ∀ (s : List (BStep V D)) (ts : List (Step V D)) (f : Frame V D) (r : List (Step V D) × Frame V D),
    materializeLoop s ts f = some r → ∃ l, r.1 = ts ++ l ∧ l.length = s.length := by
  intro s
  induction s with
  | nil => intro ts f r h; cases h; exact ⟨[], by simp, rfl⟩
  | cons a s ih =>
    intro ts f r h
    cases a with
    | fit a =>
      simp only [materializeLoop, Option.bind_eq_some_iff] at h
      obtain ⟨es, -, f', -, h⟩ := h
      obtain ⟨l, e1, e2⟩ := ih _ _ _ h
      exact ⟨.withColumns (fun _ => es) :: l, by simp [e1], by simp [e2]⟩
    | step a =>
      simp only [materializeLoop, Option.bind_eq_some_iff] at h
      obtain ⟨f', -, h⟩ := h
      obtain ⟨l, e1, e2⟩ := ih _ _ _ h
      exact ⟨a :: l, by simp [e1], by simp [e2]⟩

/-- **C153e.**  `materialize` again after one more call: the earlier steps have been learned exactly as before, and the new ones come
behind them; a blueprint that can be fitted after a call could be fitted before it. -/
theorem materialize_extends (b : Blueprint V D) (c : Call V D) (q : Pipe (Step V D)) (hq : (b.run c).2.materialize = some q) :
    ∃ p, b.materialize = some p ∧ (∃ l, q.transforms = p.transforms ++ l ∧ ((b.run c).1 = true → l ≠ [])) ∧
      p.transforms.length = b.steps.length ∧ q.featIn = p.featIn ∧ q.name = p.name ∧ q.target = p.target := by
  obtain ⟨l, base, hsteps, hl⟩ := call_appends b c
  unfold Blueprint.materialize at hq
  rw [hsteps, base.df, loop_append, Option.map_eq_some_iff] at hq
  obtain ⟨r, h1, rfl⟩ := hq
  rw [Option.bind_eq_some_iff] at h1
  obtain ⟨r0, h2, h3⟩ := h1
  obtain ⟨l0, e0, n0⟩ := loop_prefix _ _ _ _ h2
  obtain ⟨l1, e1, n1⟩ := loop_prefix _ _ _ _ h3
  refine ⟨{ name := b.name, target := b.target, featIn := b.featIn, featOut := r0.2.names, transforms := r0.1
            lowercase := b.lowercase, uppercase := b.uppercase }, by unfold Blueprint.materialize; rw [h2]; rfl, ⟨l1, e1, ?_⟩,
    by simp [e0, n0], base.featIn, base.name, base.target⟩
  intro ht e
  rw [e] at n1
  exact hl ht (List.eq_nil_of_length_eq_zero n1.symm)

/-- **C153f.**  There are no branches: two blueprints derived from a common one are that one, with the calls of both. -/
theorem branches_share (cs : Cases) (w : World V D) {base a b' : String} (hab : base ≠ a) (haa : a ≠ b') {o : Nat}
    {b : Blueprint V D} (ho : w.bvar base = some o) (hb : w.bps[o]? = some b) (c1 c2 : Call V D) (h1 : (b.run c1).1 = true)
    (h2 : (b.run c2).1 = true) :
    (w.exec cs [.call a base c1, .call b' base c2]).bvar a = some o ∧
      (w.exec cs [.call a base c1, .call b' base c2]).bvar b' = some o ∧
      (w.exec cs [.call a base c1, .call b' base c2]).bps[o]? = some ((b.run c1).2.run c2).2 := by
  have hlen : o < w.bps.length := (List.getElem?_eq_some_iff.1 hb).1
  have e1 : w.step cs (.call a base c1) =
      { w with bps := w.bps.set o (b.run c1).2, bvar := bind w.bvar a (some o) } := by
    simp only [World.step, ho, hb, h1, if_true]
  have h2' : ((b.run c1).2.run c2).1 = true := by
    rw [run_returns b _ (call_appends b c1).choose_spec.1, h2]
  have hx : bind w.bvar a (some o) base = some o := by
    unfold bind; rw [if_neg hab]; exact ho
  simp only [World.exec, List.foldl_cons, List.foldl_nil, e1]
  simp only [World.step, hx, List.getElem?_set_self hlen, h2', if_true]
  refine ⟨?_, ?_, ?_⟩
  · simp [bind, haa]
  · simp [bind]
  · rw [List.getElem?_set_self (by simpa using hlen)]

/-- **C153g.**  A step from a dictionary with the name of a step method is the call of that method; an unknown or private name, a
missing name or values of the wrong type raise `ValueError` and change nothing. -/
theorem from_dict_spec {A : Type} (attrs : String → Option (Attr A V D)) (b : Blueprint V D) :
    (∀ (n : String) (a : A) (f : A → Option (Call V D)) (c : Call V D), attrs n = some (.step f) → n.startsWith "_" = false →
      f a = some c → (b.run c).1 = true → b.fromDict attrs ⟨some n, some a⟩ = (.returnsSelf, (b.run c).2)) ∧
    (∀ (n : String) (a : A), (attrs n = none ∨ n.startsWith "_" = true) →
      b.fromDict attrs ⟨some n, some a⟩ = (.valueError, b)) ∧
    ∀ d : StepDict A, (d.name = none ∨ d.args = none) → b.fromDict attrs d = (.valueError, b) := by
  refine ⟨?_, ?_, ?_⟩
  · intro n a f c h1 h2 h3 h4
    simp [Blueprint.fromDict, h1, h2, h3, h4]
  · intro n a h
    unfold Blueprint.fromDict
    dsimp only
    cases hn : attrs n with
    | none => rfl
    | some x =>
      rcases h with h | h
      · rw [hn] at h; cases h
      · dsimp only; rw [if_pos h]
  · intro d h
    unfold Blueprint.fromDict
    split
    · rename_i n a hn ha
      rcases h with h | h
      · rw [hn] at h; cases h
      · rw [ha] at h; cases h
    · rfl

/-- **C153, disagreement.**  `append_step_from_dict({"name": "materialize"})` (also `fit`) is taken: it appends no step and returns a
pipeline instead of the blueprint; the name of a plain attribute like `name` fails with another error than the `ValueError`
for invalid method names. -/
theorem from_dict_materialize {A : Type} (attrs : String → Option (Attr A V D)) (b : Blueprint V D) (a : A)
    (h : attrs "materialize" = some .other) (h' : attrs "name" = some .value) :
    b.fromDict attrs ⟨some "materialize", some a⟩ = (.returnsOther, b) ∧
      b.fromDict attrs ⟨some "name", some a⟩ = (.otherError, b) := by
  have e1 : "materialize".startsWith "_" = false := by decide +kernel
  have e2 : "name".startsWith "_" = false := by decide +kernel
  simp [Blueprint.fromDict, h, h', e1, e2]

/-- **C153, disagreement.**  `append_fit_func` with a function whose parameter `target` has a default raises on a blueprint without
target, though the function could be called without one. -/
theorem append_fit_needs_target (b : Blueprint V D) (hb : b.target = none)
    (func : Option String → Frame V D → List String → Option (List (Ex V D))) (cols : Sel D) :
    b.run (.appendFit func true none cols) = (false, b) := by
  simp [Blueprint.run, Blueprint.getTarget, hb, Blueprint.tryAdd]

/-- **C153h.**  `append_expr` with `is_select=True` leaves the columns of the expressions only, and without it every column of the
frame as well. -/
theorem append_expr_columns (b : Blueprint V D) (es : List (String × D) → List (Ex V D)) (sel : Bool) :
    ∃ s, (b.run (.appendExpr (some es) sel)).2.steps = b.steps ++ [.step s] ∧ ∀ f g : Frame V D, s.apply f = some g →
      (sel = true → g.names = (es f.schema).map Ex.name) ∧
      (sel = false → ∀ n, n ∈ g.names ↔ n ∈ f.names ∨ n ∈ (es f.schema).map Ex.name) := by
  cases sel with
  | true =>
    refine ⟨.select es, rfl, fun f g h => ⟨fun _ => ?_, fun h => by cases h⟩⟩
    change (if runs (es f.schema) f then _ else _) = _ at h
    split_ifs at h
    cases h
    simp [Frame.names, Function.comp_def]
  | false =>
    refine ⟨.withColumns es, rfl, fun f g h => ⟨fun h => by (cases h), fun _ n => ?_⟩⟩
    change (if runs (es f.schema) f then _ else _) = _ at h
    split_ifs at h
    cases h
    by_cases hn : n ∈ f.names
    · simp only [hn, true_or, iff_true]
      unfold Frame.names at hn ⊢
      obtain ⟨c, hc, rfl⟩ := List.mem_map.1 hn
      rw [List.map_append, List.mem_append]
      left
      rw [List.map_map]
      exact List.mem_map.2 ⟨c, hc, rfl⟩
    · simp only [hn, false_or]
      unfold Frame.names at hn ⊢
      rw [List.map_append, List.mem_append, List.map_map, List.map_map]
      constructor
      · rintro (h | h)
        · obtain ⟨c, hc, rfl⟩ := List.mem_map.1 h
          exact absurd (List.mem_map.2 ⟨c, hc, rfl⟩) hn
        · obtain ⟨e, he, rfl⟩ := List.mem_map.1 h
          exact List.mem_map.2 ⟨e, List.mem_of_mem_filter he, rfl⟩
      · intro h
        obtain ⟨e, he, rfl⟩ := List.mem_map.1 h
        exact Or.inr (List.mem_map.2 ⟨e, List.mem_filter.2 ⟨he, by simpa using hn⟩, rfl⟩)

/-- **C153i.**  `y = x.method(..)` assigns nothing when the call raises; otherwise `y` refers to the object of `x`, and no other
variable changes. -/
theorem call_assigns (cs : Cases) (w : World V D) (y x : String) (c : Call V D) {o : Nat} {b : Blueprint V D}
    (ho : w.bvar x = some o) (hb : w.bps[o]? = some b) :
    ((b.run c).1 = false → (w.step cs (.call y x c)).bvar = w.bvar) ∧
      ((b.run c).1 = true → (w.step cs (.call y x c)).bvar y = some o ∧
        ∀ z, z ≠ y → (w.step cs (.call y x c)).bvar z = w.bvar z) := by
  refine ⟨fun h => ?_, fun h => ⟨?_, fun z hz => ?_⟩⟩ <;> simp only [World.step, ho, hb, h]
  · rfl
  · simp [bind]
  · simp [bind, hz]

/-- **C153j.**  A step from a dictionary whose arguments do not fit the method, or whose call raises, raises too; in the first case the
blueprint is unchanged. -/
theorem from_dict_raises {A : Type} (attrs : String → Option (Attr A V D)) (b : Blueprint V D) (n : String) (a : A)
    (f : A → Option (Call V D)) (h1 : attrs n = some (.step f)) (h2 : n.startsWith "_" = false) :
    (f a = none → b.fromDict attrs ⟨some n, some a⟩ = (.otherError, b)) ∧
      ∀ c, f a = some c → (b.run c).1 = false → (b.fromDict attrs ⟨some n, some a⟩).1 = .otherError := by
  refine ⟨fun h => ?_, fun c h h4 => ?_⟩
  · simp [Blueprint.fromDict, h1, h2, h]
  · simp [Blueprint.fromDict, h1, h2, h, h4]

/-! ## Examples -/

private def cs0 : Cases := ⟨id, id⟩
private def df0 : Frame Nat Unit := ⟨[("a", ()), ("b", ())], [fun _ => some 1]⟩
private def w0 : World Nat Unit := ⟨[], [], fun _ => none, fun _ => none⟩
private def bp0 : Blueprint Nat Unit := ⟨df0, "t", none, ["a", "b"], [], [], false, false⟩
private def dropA : Call Nat Unit := .drop (some fun _ => ["a"])
private def keepAll : Call Nat Unit := .filter (some ([], fun r => r.map fun _ => true))

example : (w0.step cs0 (.new "x" df0 "t" none none false false)).bvar "x" = some 0 := rfl

/-- `z = x.drop(..)` raises: `z` stays unbound. -/
example : ((w0.step cs0 (.new "x" df0 "t" none none false false)).step cs0 (.call "z" "x" (.drop none))).bvar "z" = none := by
  rw [(call_assigns cs0 (w0.step cs0 (.new "x" df0 "t" none none false false)) "z" "x" (.drop none) (o := 0)
    (b := bp0) rfl rfl).1 rfl]
  rfl

/-- Both steps run on a frame, and give `c` alone or `a`, `b`, `c`. -/
example : ((Step.select fun _ => [Ex.colAs "a" "c"]).apply df0).map Frame.names = some ["c"] ∧
    ((Step.withColumns fun _ => [Ex.colAs "a" "c"]).apply df0).map Frame.names = some ["a", "b", "c"] := by decide +kernel

example : bp0.fromDict (A := Nat) (fun _ => some (.step fun _ => none)) ⟨some "drop", some 1⟩ = (.otherError, bp0) :=
  (from_dict_raises _ bp0 "drop" 1 _ rfl (by decide +kernel)).1 rfl

/-- Two variables for one blueprint, a failing call, two pipelines. -/
private def prog0 : List (Stmt Nat Unit) :=
  [.new "x" df0 "t" none none false false, .call "y" "x" keepAll, .materialize "p" "y", .call "z" "x" (.drop none),
    .call "z" "y" dropA, .materialize "q" "x", .ensure "q" "q" true true]

example : ((w0.exec cs0 prog0).bps.map fun b => b.steps.length) = [2] ∧ (w0.exec cs0 prog0).bvar "z" = some 0 ∧
    ((w0.exec cs0 prog0).pipes.map fun p => (p.featOut, p.transforms.length, p.ensureIn)) =
      [(["a", "b"], 1, false), (["b"], 2, true)] := by decide +kernel

example : (bp0.run (.fitTarget (fun _ _ _ => some []) (Sel.names ["a"]) none)).1 = false ∧ (bp0.run keepAll).1 = true := by
  decide +kernel

example : (bp0.run dropA).2.materialize.isSome = true := by decide +kernel

example : (Spec.calls cs0 0 (w0.exec cs0 (prog0.take 1)) (prog0.drop 1)).length = 3 := by decide +kernel

end Verif.Pipeline
