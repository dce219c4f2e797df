import Verif.Lemmas.JsonStep
import Mathlib.Algebra.Ring.Int.Defs

/-!
# C104: JSON objects behave as values, and their storage is accounted for
-/

set_option autoImplicit false

namespace Marley.Props
open Marley Marley.Json Marley.JsonHeap Marley.JsonValue

variable {K : Type}

/-- **C104** (values).  Start with no variables and perform any sequence of operations on JSON
objects: construction, copy and move construction, assignment of literals, copy and move
assignment between any two places in any two (or the same) variables, `append`, and
destruction.  Whenever the program has a meaning in terms of plain values, the code runs
without undefined behaviour (no use of released storage, no double release, no reference
into a container that has moved), and afterwards reading any variable gives exactly the
value the specification assigns to it, variables that do not exist included.

Missing: programs without a meaning (`C104_alias_violated`, `C104_index_violated`); and the
meaning itself makes a self-move null (`C104_self_move_violated`). -/
theorem C104_values_partial [Zero K] {ops : List (Op K)} {ρ : Vars K}
    (h : Steps (fun _ => none) ops ρ) :
    ∃ s, (Mem.empty : Mem K).run ops = .ok s ∧ ∀ i, s.read i = (ρ i).map .ok := by
  obtain ⟨s, ω, y, h1, R⟩ := Rep.steps h Rep.empty
  exact ⟨s, h1, R.read⟩

/-- **C104** (programs that have a meaning).  In any state the following operations have a
meaning: making a variable that does not exist, by a literal or by copying or moving from
any place of a variable that does; assigning a literal; destroying a variable; copy or move
assignment and `append` between existing variables, in either order of evaluation, provided
that, if both sides are places of the same variable, the two paths do not use the same
place both as an object and as an array.  All indices must be less than 2³² − 1. -/
theorem C104_defined (ρ : Vars K) (i j : Nat) (p q : List Step) (hp : InRange p) (hq : InRange q)
    (hj : (ρ j).isSome = true) :
    (ρ i = none → (∀ x, ∃ ρ', Step1 ρ (.build i x) ρ') ∧ (∃ ρ', Step1 ρ (.copyNew i j q) ρ') ∧
      ∃ ρ', Step1 ρ (.moveNew i j q) ρ') ∧
    (∀ x, ∃ ρ', Step1 ρ (.setLit j q x) ρ') ∧ (∃ ρ', Step1 ρ (.destroy j) ρ') ∧
    ((ρ i).isSome = true → (i = j → ¬ Clash p q) → ∀ right,
      (∃ ρ', Step1 ρ (.copyTo right i p j q) ρ') ∧ (∃ ρ', Step1 ρ (.moveTo right i p j q) ρ') ∧
      ∃ ρ', Step1 ρ (.append i p j q) ρ') := by
  obtain ⟨v, hv⟩ := Option.isSome_iff_exists.1 hj
  refine ⟨fun hi => ⟨fun x => ⟨_, .build hi⟩, ?_, ?_⟩, fun x => ⟨_, .setLit hv hq⟩, ⟨_, .destroy hv⟩, ?_⟩
  · have h1 : ρ.touch j q = some (ρ.set j (touch v q)) := by simp [Vars.touch, hv]
    exact ⟨_, .copyNew hi hq h1 (v := touch v q) (by simp [Vars.set])⟩
  · have h1 : ρ.touch j q = some (ρ.set j (touch v q)) := by simp [Vars.touch, hv]
    exact ⟨_, .moveNew hi hq h1 (v := touch v q) (by simp [Vars.set])⟩
  · intro hi hc right
    obtain ⟨ρ', a, b, w, w', h1, h2, h3, h4, h5⟩ := both_some hi hj hc right
    obtain ⟨ρ2, a2, b2, w2, w2', g1, g2, g3, g4, g5⟩ := both_some hi hj hc false
    refine ⟨⟨_, .copyTo hp hq h1 h2 h3 h4 h5⟩, ?_, ⟨_, .append hp hq g1 g2 g3 g4 g5⟩⟩
    have : ∃ c, ρ'.set i (putPath a p w) j = some c := by
      by_cases e : j = i
      · exact ⟨_, by rw [Vars.set, if_pos e]⟩
      · exact ⟨b, by rw [Vars.set, if_neg e, h3]⟩
    obtain ⟨c, hc⟩ := this
    exact ⟨_, .moveTo hp hq h1 h2 h3 h4 h5 hc⟩

/-- **C104** (storage).  If in addition no assignment of one JSON object to another replaces a
text, an array or an object, or moves an object into a part of itself, then nothing leaks:
once every variable has been destroyed, no storage is left allocated.

Missing: the assignments left out do leak (`C104_leak_violated`). -/
theorem C104_no_leak_partial [Zero K] {ops : List (Op K)} {ρ : Vars K}
    (h : CleanSteps (fun _ => none) ops ρ) (he : ∀ i, ρ i = none) :
    ∃ s, (Mem.empty : Mem K).run ops = .ok s ∧ ∀ a, s.heap.node a = none := by
  obtain ⟨s, ω, h1, R⟩ := Rep.clean h Rep.empty
  refine ⟨s, h1, fun a => ?_⟩
  by_contra ha
  obtain ⟨o, t, ho, -⟩ := R.sim.exact rfl a ha
  cases o with
  | none => rw [R.tmp] at ho; simp at ho
  | some i =>
    have := R.val i
    rw [he i, ho] at this; simp at this

/-! ## A program -/

theorem _root_.Marley.JsonValue.CleanSteps.steps {ρ ρ' : Vars K} {ops : List (Op K)}
    (h : CleanSteps ρ ops ρ') : Steps ρ ops ρ' := by
  induction h with
  | nil => exact .nil
  | cons a _ _ ih => exact .cons a ih

/-- `JSON x = object(); x["a"] = "t"; x["b"] = x; JSON y = std::move(x["a"]); x["c"].append(y);`
and the destructors. -/
def sampleOps : List (Op ℤ) :=
  [.build 0 .object, .setLit 0 [.key ['a']] (.text ['t']), .copyTo true 0 [.key ['b']] 0 [],
    .moveNew 1 0 [.key ['a']], .append 0 [.key ['c']] 1 []]

/-- What `x` holds in the end. -/
def sampleVal : JVal ℤ :=
  .obj [(['a'], .null), (['b'], .obj [(['a'], .str ['t']), (['b'], .null)]), (['c'], .arr [.str ['t']])]

theorem sample_steps : ∃ ρ : Vars ℤ, CleanSteps (fun _ => none) sampleOps ρ ∧ ρ 0 = some sampleVal ∧
    ρ 1 = some (.str ['t']) ∧ ∀ i, i ≠ 0 → i ≠ 1 → ρ i = none := by
  refine ⟨_, .cons (.build rfl) trivial <| .cons (.setLit rfl (by simp [InRange])) trivial <|
    .cons (.copyTo (by simp [InRange]) (by simp [InRange]) rfl rfl rfl rfl rfl) ?_ <|
    .cons (.moveNew rfl (by simp [InRange]) rfl rfl) trivial <|
    .cons (.append (by simp [InRange]) (by simp [InRange]) rfl rfl rfl rfl rfl) trivial .nil, rfl, rfl, ?_⟩
  · intro ρ' a w' h1 h2 h3
    injection h1 with h1; subst h1
    injection h2 with h2; subst h2
    injection h3 with h3; subst h3
    trivial
  · intro i h0 h1
    simp [Vars.set, h0, h1]

/-- `C104_values_partial` and `C104_no_leak_partial` apply to it. -/
example : ∃ s, (Mem.empty : Mem ℤ).run sampleOps = .ok s ∧ s.read 0 = some (.ok sampleVal) ∧
    s.read 1 = some (.ok (.str ['t'])) ∧ s.read 2 = none := by
  obtain ⟨ρ, h, h0, h1, h2⟩ := sample_steps
  obtain ⟨s, a1, a2⟩ := C104_values_partial h.steps
  exact ⟨s, a1, by rw [a2, h0]; rfl, by rw [a2, h1]; rfl, by rw [a2, h2 2 (by decide) (by decide)]; rfl⟩

theorem cleanSteps_append {ρ ρ' ρ'' : Vars K} {l l' : List (Op K)} (h : CleanSteps ρ l ρ')
    (h' : CleanSteps ρ' l' ρ'') : CleanSteps ρ (l ++ l') ρ'' := by
  induction h with
  | nil => exact h'
  | cons a b _ ih => exact .cons a b (ih h')

example : ∃ s, (Mem.empty : Mem ℤ).run (sampleOps ++ [.destroy 1, .destroy 0]) = .ok s ∧
    ∀ a, s.heap.node a = none := by
  obtain ⟨ρ, h, h0, h1, h2⟩ := sample_steps
  refine C104_no_leak_partial (cleanSteps_append h (.cons (.destroy h1) trivial
    (.cons (.destroy (v := sampleVal) ?_) trivial .nil))) ?_
  · simp [h0]
  · intro i
    split
    · rfl
    · split
      · rfl
      · exact h2 i (by assumption) (by assumption)

/-- `C104_defined` applies to `x["a"][1] = x["a"]`. -/
example : ∃ ρ', Step1 (Vars.set (fun _ => none) 0 (.int 3) : Vars ℤ)
    (.copyTo false 0 [.key ['a'], .index 1] 0 [.key ['a']]) ρ' := by
  refine ((C104_defined (K := ℤ) _ 0 0 _ _ ?_ ?_ (by simp [Vars.set])).2.2.2 (by simp [Vars.set]) ?_ false).1
  · intro n hn; simp at hn; omega
  · intro n hn; simp at hn
  · rintro - ⟨c, s, s', p', q', h1, h2, h3⟩
    cases c with
    | nil =>
      simp only [List.nil_append, List.cons.injEq] at h1 h2
      rw [← h1.1, ← h2.1] at h3; exact h3 rfl
    | cons d c => simp at h2

/-! ## Disagreements -/

/-- The operations have a meaning and every variable is destroyed. -/
theorem leak_steps : ∃ ρ : Vars ℤ, Steps (fun _ => none)
    [.build 0 (.lit (.text ['t'])), .build 1 .null, .copyTo true 0 [] 1 [], .destroy 0, .destroy 1] ρ ∧
      ∀ i, ρ i = none := by
  refine ⟨_, .cons (.build rfl) <| .cons (.build rfl) <|
    .cons (.copyTo (by simp [InRange]) (by simp [InRange]) rfl rfl rfl rfl rfl) <|
    .cons (.destroy rfl) <| .cons (.destroy rfl) .nil, ?_⟩
  intro i
  by_cases h1 : i = 1
  · simp [h1]
  · by_cases h0 : i = 0
    · simp [h0]
    · simp [Vars.set, h1, h0]

/-- The claim that destroying every variable releases all storage fails: copy assignment over a
text does not release the text. -/
theorem C104_leak_violated : ¬ ∀ (ops : List (Op ℤ)) (ρ : Vars ℤ), Steps (fun _ => none) ops ρ →
    (∀ i, ρ i = none) → ∃ s, (Mem.empty : Mem ℤ).run ops = .ok s ∧ ∀ a, s.heap.node a = none := by
  intro H
  obtain ⟨ρ, h1, h2⟩ := leak_steps
  obtain ⟨s, h3, h4⟩ := H _ ρ h1 h2
  have h5 : ∃ s', (Mem.empty : Mem ℤ).run [.build 0 (.lit (.text ['t'])), .build 1 .null,
      .copyTo true 0 [] 1 [], .destroy 0, .destroy 1] = .ok s' ∧ s'.heap.node 0 = some (.text ['t']) :=
    ⟨_, rfl, rfl⟩
  obtain ⟨s', h6, h7⟩ := h5
  rw [h3] at h6
  injection h6 with h6
  subst h6
  rw [h4 0] at h7
  simp at h7

/-- `x = std::move(x)` makes `x` null. -/
theorem C104_self_move_violated (right : Bool) : ∃ s, (Mem.empty : Mem ℤ).run
    [.build 0 (.lit (.text ['t'])), .moveTo right 0 [] 0 []] = .ok s ∧ s.read 0 = some (.ok .null) := by
  cases right
  · exact ⟨_, rfl, rfl⟩
  · exact ⟨_, rfl, rfl⟩

/-- `x[0] = x["a"]` with an object `x` uses released storage, whichever side is evaluated
first. -/
theorem C104_alias_violated (right : Bool) : (Mem.empty : Mem ℤ).run
    [.build 0 .object, .setLit 0 [.key ['a']] (.int 1), .copyTo right 0 [.index 0] 0 [.key ['a']]] =
      .error .ub := by
  cases right <;> rfl

/-- `x[4294967295]` is outside the array it makes: `index + 1` is computed in `unsigned`. -/
theorem C104_index_violated : (Mem.empty : Mem ℤ).run
    [.build 0 .array, .setLit 0 [.index 4294967295] (.int 1)] = .error .ub := rfl

end Marley.Props
