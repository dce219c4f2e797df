import Verif.Spec.Generator
import Verif.Lemmas.Stream
import Verif.Lemmas.Discrete
import Verif.Lemmas.Sampling

/-!
# Lemmas about the generator
-/

set_option autoImplicit false
set_option linter.dupNamespace false

namespace Marley.Gen
open Marley Marley.Sampling
open Marley.Rot (V3 Rotator)

variable {G σ : Type}

/-! ## Functions whose state is only a cache -/

/-- The result of a call does not depend on the state, as long as the state is good; and good
states stay good. -/
structure Cached (f : ℝ → σ → Res (ℝ × σ)) (P : σ → Prop) : Prop where
  eq : ∀ x s t, P s → P t → f x s = f x t
  keep : ∀ x s v t, P s → f x s = .ok (v, t) → P t

theorem rejectLoop_cached {A : Arith} {E : Engine G} {f : ℝ → σ → Res (ℝ × σ)} {P : σ → Prop}
    (h : Cached f P) {xmin xmax safety : ℝ} (n : Nat) (m : ℝ) (g : G) {s t : σ} (hs : P s)
    (ht : P t) :
    rejectLoop A E f xmin xmax safety n m g s = rejectLoop A E f xmin xmax safety n m g t := by
  cases n with
  | zero => rfl
  | succ n => simp only [rejectLoop]; rw [h.eq _ s t hs ht]

/-- The state left behind is that of a call at the abscissa returned. -/
theorem rejectLoop_last {A : Arith} {E : Engine G} {f : ℝ → σ → Res (ℝ × σ)} {P : σ → Prop}
    (h : Cached f P) {xmin xmax safety : ℝ} (n : Nat) (m : ℝ) (g : G) {s : σ} (hs : P s)
    {r : Sampled G σ} (e : rejectLoop A E f xmin xmax safety n m g s = some (.ok r)) :
    ∃ v, f r.x s = .ok (v, r.st) ∧ r.y ≤ v := by
  induction n generalizing m g s with
  | zero => simp [rejectLoop] at e
  | succ n ih =>
    rw [rejectLoop] at e
    dsimp only at e
    cases hf : f (uniform A E xmin xmax true g).1 s with
    | error _ => rw [hf] at e; simp at e
    | ok p =>
      obtain ⟨v, t⟩ := p
      rw [hf] at e
      dsimp only at e
      have ht := h.keep _ _ _ _ hs hf
      generalize (if v > m then v * safety else m) = m' at e
      split_ifs at e with hy
      · obtain ⟨w, hw, hle⟩ := ih _ _ ht e
        exact ⟨w, by rw [h.eq _ s t hs ht]; exact hw, hle⟩
      · cases e
        exact ⟨v, hf, not_lt.1 hy⟩

theorem rejectLoop_bound {A : Arith} {E : Engine G} {f : ℝ → σ → Res (ℝ × σ)} {P : σ → Prop}
    (h : Cached f P) {xmin xmax safety : ℝ} (n : Nat) (m : ℝ) (g : G) {s : σ} (hs : P s)
    (hm : ∀ x s v t, P s → f x s = .ok (v, t) → v ≤ m)
    {r : Sampled G σ} (e : rejectLoop A E f xmin xmax safety n m g s = some (.ok r)) :
    r.fmax = m := by
  induction n generalizing g s with
  | zero => simp [rejectLoop] at e
  | succ n ih =>
    rw [rejectLoop] at e
    dsimp only at e
    cases hf : f (uniform A E xmin xmax true g).1 s with
    | error _ => rw [hf] at e; simp at e
    | ok p =>
      obtain ⟨v, t⟩ := p
      rw [hf] at e
      dsimp only at e
      rw [if_neg (not_lt.2 (hm _ _ _ _ hs hf))] at e
      split_ifs at e with hy
      · exact ih _ (h.keep _ _ _ _ hs hf) e
      · cases e; rfl

theorem minimize_cached {f : ℝ → σ → Res (ℝ × σ)} {P : σ → Prop} (h : Cached f P) (n : Nat)
    (l r ε : ℝ) {s t : σ} (hs : P s) (ht : P t) : minimize n f l r ε s = minimize n f l r ε t := by
  unfold minimize
  dsimp only
  rw [h.eq _ s t hs ht]

theorem brentLoop_keep {f : ℝ → σ → Res (ℝ × σ)} {P : σ → Prop} (h : Cached f P) (ε : ℝ) (n : Nat)
    (b : Brent) {s : σ} (hs : P s) {b' : Brent} {t : σ}
    (e : brentLoop f ε n b s = some (.ok (b', t))) : P t := by
  induction n generalizing b s with
  | zero => simp [brentLoop] at e
  | succ n ih =>
    rw [brentLoop] at e
    split_ifs at e with hc
    · dsimp only at e
      cases hf : f (b.probe ε (b.step ε).1) s with
      | error _ => rw [hf] at e; simp at e
      | ok p =>
        rw [hf] at e
        exact ih _ (h.keep _ _ _ _ hs hf) e
    · cases e; exact hs

theorem negated_cached {f : ℝ → σ → Res (ℝ × σ)} {P : σ → Prop} (h : Cached f P) :
    Cached (negated f) P where
  eq x s t hs ht := by unfold negated; rw [h.eq x s t hs ht]
  keep x s v t hs e := by
    unfold negated at e
    cases hf : f x s with
    | error _ => rw [hf] at e; simp at e
    | ok p => rw [hf] at e; cases e; exact h.keep _ _ _ _ hs hf

theorem maximize_cached {f : ℝ → σ → Res (ℝ × σ)} {P : σ → Prop} (h : Cached f P) (n : Nat)
    (l r ε : ℝ) {s t : σ} (hs : P s) (ht : P t) : maximize n f l r ε s = maximize n f l r ε t := by
  unfold maximize
  rw [minimize_cached (negated_cached h) n l r ε hs ht]

theorem maximize_keep {f : ℝ → σ → Res (ℝ × σ)} {P : σ → Prop} (h : Cached f P) (n : Nat)
    (l r ε : ℝ) {s : σ} (hs : P s) {x y : ℝ} {t : σ}
    (e : maximize n f l r ε s = some (.ok (x, y, t))) : P t := by
  have hn := negated_cached h
  unfold maximize minimize at e
  dsimp only at e
  cases hf : negated f (l + golden * (r - l)) s with
  | error _ => rw [hf] at e; simp at e
  | ok p =>
    obtain ⟨v, t'⟩ := p
    rw [hf] at e
    dsimp only at e
    have ht' := hn.keep _ _ _ _ hs hf
    cases hb : brentLoop (negated f) ε n ⟨l, r, l + golden * (r - l), l + golden * (r - l),
        l + golden * (r - l), 0, 0, v, v, v⟩ t' with
    | none => rw [hb] at e; simp at e
    | some q =>
      rw [hb] at e
      cases q with
      | error _ => simp at e
      | ok q =>
        obtain ⟨b', t''⟩ := q
        simp only [Option.some.injEq, Except.ok.injEq, Prod.mk.injEq] at e
        rw [← e.2.2]
        exact brentLoop_keep hn ε n _ ht' hb

theorem weightedSum_keep {f : ℝ → σ → Res (ℝ × σ)} {P : σ → Prop} (h : Cached f P)
    (l : List (ℝ × ℝ)) (acc : ℝ) {s : σ} (hs : P s) {v : ℝ} {t : σ}
    (e : weightedSum f l acc s = .ok (v, t)) : P t := by
  induction l generalizing acc s with
  | nil => cases e; exact hs
  | cons p l ih =>
    obtain ⟨w, x⟩ := p
    rw [weightedSum] at e
    cases hf : f x s with
    | error _ => rw [hf] at e; simp at e
    | ok q => rw [hf] at e; exact ih _ (h.keep _ _ _ _ hs hf) e

theorem nodes_cons (N : Nat) (a b : ℝ) : ∃ p l, nodes N a b = p :: l := ⟨_, _, rfl⟩

theorem numIntegrate_cached {f : ℝ → σ → Res (ℝ × σ)} {P : σ → Prop} (h : Cached f P)
    (a b : ℝ) {s t : σ} (hs : P s) (ht : P t) : numIntegrate f a b s = numIntegrate f a b t := by
  unfold numIntegrate
  obtain ⟨p, l, e⟩ := nodes_cons 50 a b
  rw [e]
  simp only [weightedSum]
  rw [h.eq _ s t hs ht]

/-- Integration is linear. -/
theorem weightedSum_div {f k : ℝ → σ → Res (ℝ × σ)} {P : σ → Prop} (h : Cached f P) (n : ℝ)
    (hk : ∀ x s v t, P s → f x s = .ok (v, t) → k x s = .ok (v / n, t))
    (l : List (ℝ × ℝ)) (acc : ℝ) {s : σ} (hs : P s) {v : ℝ} {t : σ}
    (e : weightedSum f l acc s = .ok (v, t)) : weightedSum k l (acc / n) s = .ok (v / n, t) := by
  induction l generalizing acc s with
  | nil => cases e; rfl
  | cons p l ih =>
    obtain ⟨w, x⟩ := p
    rw [weightedSum] at e
    cases hf : f x s with
    | error _ => rw [hf] at e; simp at e
    | ok q =>
      obtain ⟨y, t'⟩ := q
      rw [hf] at e
      rw [weightedSum, hk x s y t' hs hf]
      dsimp only
      have := ih (acc + w * y) (h.keep _ _ _ _ hs hf) e
      rwa [show (acc + w * y) / n = acc / n + w * (y / n) by ring] at this

/-! ## The loops over reactions -/

/-- All the weighted cross sections. -/
noncomputable def Gen.weights (g : Gen G) (pdg : Int) (E : ℝ) : List (Rx G) → Res (List ℝ)
  | [] => .ok []
  | r :: rs => match g.weighted r pdg E with
    | .error e => .error e
    | .ok x => match g.weights pdg E rs with
      | .error e => .error e
      | .ok l => .ok (x :: l)

theorem weights_length {g : Gen G} {pdg : Int} {E : ℝ} {rs : List (Rx G)} {l : List ℝ}
    (h : g.weights pdg E rs = .ok l) : l.length = rs.length := by
  induction rs generalizing l with
  | nil => cases h; rfl
  | cons r rs ih =>
    rw [Gen.weights] at h
    cases h1 : g.weighted r pdg E with
    | error _ => rw [h1] at h; simp at h
    | ok x =>
      rw [h1] at h
      dsimp only at h
      cases h2 : g.weights pdg E rs with
      | error _ => rw [h2] at h; simp at h
      | ok t => rw [h2] at h; cases h; simp [ih h2]

theorem weights_get {g : Gen G} {pdg : Int} {E : ℝ} {rs : List (Rx G)} {l : List ℝ}
    (h : g.weights pdg E rs = .ok l) {j : Nat} {r : Rx G} (hj : rs[j]? = some r) :
    ∃ x, g.weighted r pdg E = .ok x ∧ l[j]? = some x := by
  induction rs generalizing l j with
  | nil => simp at hj
  | cons r' rs ih =>
    rw [Gen.weights] at h
    cases h1 : g.weighted r' pdg E with
    | error _ => rw [h1] at h; simp at h
    | ok x =>
      rw [h1] at h
      dsimp only at h
      cases h2 : g.weights pdg E rs with
      | error _ => rw [h2] at h; simp at h
      | ok t =>
        rw [h2] at h; cases h
        cases j with
        | zero => cases hj; exact ⟨x, h1, rfl⟩
        | succ j => exact ih h2 (by simpa using hj)

theorem weights_congr {g h : Gen G} (ht : g.target = h.target) (pdg : Int) (E : ℝ)
    (rs : List (Rx G)) : g.weights pdg E rs = h.weights pdg E rs := by
  induction rs with
  | nil => rfl
  | cons r rs ih => simp only [Gen.weights, Gen.weighted, ih, ht]

theorem pdfLoop_eq (g : Gen G) (E : ℝ) (rs : List (Rx G)) (j : Nat) (acc : ℝ) (vals : List ℝ)
    (h : vals.length = j + rs.length) :
    g.pdfLoop E rs j acc vals = match g.weights g.source.pid E rs with
      | .error e => .error e
      | .ok ws => .ok (acc + ws.sum, vals.take j ++ ws) := by
  induction rs generalizing j acc vals with
  | nil =>
    simp only [Gen.pdfLoop, Gen.weights, List.sum_nil, add_zero, List.append_nil]
    rw [List.take_of_length_le (by simpa using h.le)]
  | cons r rs ih =>
    simp only [Gen.pdfLoop, Gen.weights]
    cases h1 : g.weighted r g.source.pid E with
    | error _ => rfl
    | ok x =>
      dsimp only
      rw [if_pos (by rw [h]; simp), ih (j + 1) (acc + x) (vals.set j x)
        (by rw [List.length_set, h, List.length_cons]; omega)]
      cases h2 : g.weights g.source.pid E rs with
      | error _ => rfl
      | ok ws =>
        dsimp only
        have hj : j < vals.length := by rw [h]; simp
        have : (vals.set j x).take (j + 1) = vals.take j ++ [x] := by
          rw [List.take_add_one, List.take_set_of_le (le_refl j)]
          simp [hj]
        rw [this]
        simp [add_assoc]

theorem totalLoop_eq (g : Gen G) (pdg : Int) (E : ℝ) (rs : List (Rx G)) (acc : ℝ) :
    g.totalLoop pdg E rs acc = match g.weights pdg E rs with
      | .error e => .error e
      | .ok ws => .ok (acc + ws.sum) := by
  induction rs generalizing acc with
  | nil => simp [Gen.totalLoop, Gen.weights]
  | cons r rs ih =>
    simp only [Gen.totalLoop, Gen.weights]
    cases h1 : g.weighted r pdg E with
    | error _ => rfl
    | ok x =>
      dsimp only
      rw [ih]
      cases h2 : g.weights pdg E rs with
      | error _ => rfl
      | ok ws => simp [add_assoc]

/-- The cache has one entry for each reaction. -/
def Gen.Sized (g : Gen G) (vals : List ℝ) : Prop := vals.length = g.reactions.length

theorem ePdf_eq (g : Gen G) (E : ℝ) {vals : List ℝ} (h : g.Sized vals) :
    g.ePdf E vals = match g.weights g.source.pid E g.reactions with
      | .error e => .error e
      | .ok ws =>
        if g.weightFlux then
          if g.norm = 0 then .error .ub else .ok (ws.sum * g.source.pdf E / g.norm, ws)
        else if ws.sum ≤ 0 then .ok (0, ws)
        else if g.norm = 0 then .error .ub
        else .ok (g.source.pdf E / g.norm, ws) := by
  unfold Gen.ePdf
  rw [pdfLoop_eq g E g.reactions 0 0 vals (by rw [Nat.zero_add]; exact h)]
  cases g.weights g.source.pid E g.reactions with
  | error _ => rfl
  | ok ws => simp

theorem ePdf_weights {g : Gen G} {E : ℝ} {vals : List ℝ} (h : g.Sized vals) {d : ℝ}
    {ws : List ℝ} (e : g.ePdf E vals = .ok (d, ws)) :
    g.weights g.source.pid E g.reactions = .ok ws := by
  rw [ePdf_eq g E h] at e
  cases hw : g.weights g.source.pid E g.reactions with
  | error _ => rw [hw] at e; simp at e
  | ok l =>
    rw [hw] at e
    dsimp only at e
    split_ifs at e <;> cases e <;> rfl

theorem ePdf_cached (g : Gen G) : Cached g.ePdf g.Sized where
  eq x s t hs ht := by rw [ePdf_eq g x hs, ePdf_eq g x ht]
  keep x s v t hs e := weights_length (ePdf_weights hs e)

/-- The density for another norm. -/
theorem ePdf_norm {g : Gen G} {n E : ℝ} (hn : n ≠ 0) {vals : List ℝ} (h : g.Sized vals) {d : ℝ}
    {ws : List ℝ} (e : { g with norm := 1 }.ePdf E vals = .ok (d, ws)) :
    { g with norm := n }.ePdf E vals = .ok (d / n, ws) := by
  have hw : ∀ n : ℝ, { g with norm := n }.weights g.source.pid E g.reactions
      = g.weights g.source.pid E g.reactions := by
    intro n
    exact weights_congr (by rfl) _ _ _
  rw [ePdf_eq _ E (by exact h)] at e ⊢
  dsimp only at e ⊢
  rw [hw] at e ⊢
  cases hw' : g.weights g.source.pid E g.reactions with
  | error _ => rw [hw'] at e; simp at e
  | ok l =>
    rw [hw'] at e
    dsimp only at e ⊢
    rw [if_neg hn]
    rw [if_neg one_ne_zero] at e
    split_ifs at e ⊢ <;> cases e <;> simp

/-! ## Choosing a reaction -/

theorem openReactions_spec (pdg : Int) (KE : ℝ) (atom : Int) (j : Nat) (rs : List (Rx G))
    {sum : ℝ} {is : List Nat} {xs : List ℝ}
    (e : openReactions pdg KE atom j rs = .ok (sum, is, xs)) :
    is.length = xs.length ∧ (∀ x ∈ xs, 0 < x) ∧ sum = xs.sum ∧
    (∀ i ∈ is, j ≤ i ∧ ∃ r x, rs[i - j]? = some r ∧ r.atom = atom ∧ r.pdgA = pdg ∧
      r.totalXs pdg KE = .ok x ∧ 0 < x) ∧
    (xs = [] → ∀ r ∈ rs, r.atom = atom → r.pdgA = pdg → ∃ x, r.totalXs pdg KE = .ok x ∧ x ≤ 0) := by
  induction rs generalizing j sum is xs with
  | nil => cases e; simp
  | cons r rs ih =>
    have shift : ∀ {is' : List Nat}, (∀ i ∈ is', j + 1 ≤ i ∧ ∃ r x, rs[i - (j + 1)]? = some r ∧
        r.atom = atom ∧ r.pdgA = pdg ∧ r.totalXs pdg KE = .ok x ∧ 0 < x) →
        ∀ i ∈ is', j ≤ i ∧ ∃ r' x, (r :: rs)[i - j]? = some r' ∧
          r'.atom = atom ∧ r'.pdgA = pdg ∧ r'.totalXs pdg KE = .ok x ∧ 0 < x := by
      intro is' h i hi
      obtain ⟨h1, r', x, h2, h3⟩ := h i hi
      refine ⟨by omega, r', x, ?_, h3⟩
      rw [show i - j = (i - (j + 1)) + 1 by omega]
      simpa using h2
    rw [openReactions] at e
    split_ifs at e with h1 h2
    · obtain ⟨a, b, c, d, f⟩ := ih (j + 1) e
      refine ⟨a, b, c, shift d, fun hx r' hr' ha hp => ?_⟩
      rcases List.mem_cons.1 hr' with rfl | hr'
      · exact absurd ha.symm h1
      · exact f hx r' hr' ha hp
    · obtain ⟨a, b, c, d, f⟩ := ih (j + 1) e
      refine ⟨a, b, c, shift d, fun hx r' hr' ha hp => ?_⟩
      rcases List.mem_cons.1 hr' with rfl | hr'
      · exact absurd hp.symm h2
      · exact f hx r' hr' ha hp
    · cases hx : r.totalXs pdg KE with
      | error _ => rw [hx] at e; simp at e
      | ok x =>
        rw [hx] at e
        dsimp only at e
        cases ho : openReactions pdg KE atom (j + 1) rs with
        | error _ => rw [ho] at e; simp at e
        | ok p =>
          obtain ⟨sum', is', xs'⟩ := p
          rw [ho] at e
          dsimp only at e
          obtain ⟨a, b, c, d, f⟩ := ih (j + 1) ho
          split_ifs at e with hp
          · cases e
            refine ⟨by simp [a], ?_, by simp [c], ?_, by simp⟩
            · intro y hy
              rcases List.mem_cons.1 hy with rfl | hy
              · exact hp
              · exact b y hy
            · intro i hi
              rcases List.mem_cons.1 hi with rfl | hi
              · exact ⟨le_refl _, r, x, by simp, (not_not.1 h1).symm, (not_not.1 h2).symm, hx, hp⟩
              · exact shift d i hi
          · cases e
            refine ⟨a, b, c, shift d, fun hx' r' hr' ha hpd => ?_⟩
            rcases List.mem_cons.1 hr' with rfl | hr'
            · exact ⟨x, hx, not_lt.1 hp⟩
            · exact f hx' r' hr' ha hpd

theorem openReactions_ok (pdg : Int) (KE : ℝ) (atom : Int) (j : Nat) (rs : List (Rx G))
    (h : ∀ r ∈ rs, r.atom = atom → r.pdgA = pdg → ∃ x, r.totalXs pdg KE = .ok x) :
    ∃ p, openReactions pdg KE atom j rs = .ok p := by
  induction rs generalizing j with
  | nil => exact ⟨_, rfl⟩
  | cons r rs ih =>
    obtain ⟨p, hp⟩ := ih (j + 1) (fun r' hr' => h r' (List.mem_cons_of_mem _ hr'))
    rw [openReactions]
    split_ifs with h1 h2
    · exact ⟨p, hp⟩
    · exact ⟨p, hp⟩
    · obtain ⟨x, hx⟩ := h r List.mem_cons_self (not_not.1 h1).symm (not_not.1 h2).symm
      rw [hx, hp]
      dsimp only
      split_ifs <;> exact ⟨_, rfl⟩

/-- With positive weights the index chosen is in range. -/
theorem pickFrom_pos {E : Engine G} (hE : E.Lawful) {w : List ℝ} (hw : ∀ x ∈ w, 0 < x)
    (hne : w ≠ []) (g : G) : ∃ i g', pickFrom E w g = .ok (i, g') ∧ i < w.length := by
  have hpos : 0 < w.length := List.length_pos_iff.2 hne
  unfold pickFrom
  by_cases hl : w.length < 2
  · rw [if_pos hl]; exact ⟨0, g, rfl, hpos⟩
  · rw [if_neg hl]
    have hsum : 0 < w.sum := List.sum_pos w hw hne
    have : ¬ (w.any (· < 0) = true ∨ w.sum = 0) := by
      rintro (h | h)
      · simp only [List.any_eq_true, decide_eq_true_eq] at h
        obtain ⟨x, hx, h⟩ := h
        exact absurd (hw x hx) (not_lt.2 h.le)
      · exact hsum.ne' h
    cases hp : pick w (E.draw g).1 with
    | error _ =>
      unfold pick at hp
      rw [if_neg hl, if_neg this] at hp
      cases hp
    | ok i => exact ⟨i, _, rfl, pick_lt (hE g) hp hne⟩

/-! ## The text of the engine -/

theorem readNat64_stop {n : Nat} (hn : n < 2 ^ 64) {c : Char} (hc : Json.isDigit c = false)
    (s : Json.Str) : readNat64 (Json.natText n ++ c :: s) = some (n, c :: s) := by
  obtain ⟨d, t, h1, h2⟩ := Json.natText_head_ne n
  have hb : skipBlank (Json.natText n ++ c :: s) = Json.natText n ++ c :: s := by
    rw [h1]; exact skipBlank_cons (isDigit_not_space h2) _
  unfold readNat64
  simp only [hb, Json.takeWhile_append_stop (Json.natText_digits n) hc,
    Json.dropWhile_append_stop (Json.natText_digits n) hc, Json.digitsVal_natText]
  rw [if_neg (Json.natText_ne_nil n), if_pos hn]

theorem readNat64_end {n : Nat} (hn : n < 2 ^ 64) : readNat64 (Json.natText n) = some (n, []) := by
  obtain ⟨d, t, h1, h2⟩ := Json.natText_head_ne n
  have hb : skipBlank (Json.natText n) = Json.natText n := by
    rw [h1]; exact skipBlank_cons (isDigit_not_space h2) _
  have hd : (Json.natText n).dropWhile Json.isDigit = [] := by
    have := List.takeWhile_append_dropWhile (p := Json.isDigit) (l := Json.natText n)
    rw [Json.takeWhile_all (Json.natText_digits n)] at this
    simpa using this
  unfold readNat64
  simp only [hb, Json.takeWhile_all (Json.natText_digits n), hd, Json.digitsVal_natText]
  rw [if_neg (Json.natText_ne_nil n), if_pos hn]

theorem readNat64_blank (s : Json.Str) : readNat64 (' ' :: s) = readNat64 s := by
  unfold readNat64
  rw [skipBlank_space (by decide)]

theorem readNats_blank (n : Nat) (hn : n ≠ 0) (s : Json.Str) :
    readNats n (' ' :: s) = readNats n s := by
  cases n with
  | zero => exact absurd rfl hn
  | succ n => simp only [readNats, readNat64_blank]

theorem joinNats_cons (n : Nat) {l : List Nat} (h : l ≠ []) :
    joinNats (n :: l) = Json.natText n ++ ' ' :: joinNats l := by
  cases l with
  | nil => exact absurd rfl h
  | cons a t => rfl

/-- Reading back the words; the position is left. -/
theorem readNats_join (l : List Nat) (p : Nat) (hl : ∀ w ∈ l, w < 2 ^ 64) :
    ∃ s, readNats l.length (joinNats (l ++ [p])) = some (l, s) ∧
      readNat64 s = readNat64 (Json.natText p) := by
  induction l with
  | nil => exact ⟨_, rfl, rfl⟩
  | cons a t ih =>
    obtain ⟨s, h1, h2⟩ := ih (fun w hw => hl w (List.mem_cons_of_mem _ hw))
    rw [List.cons_append, joinNats_cons a (by simp), List.length_cons]
    simp only [readNats]
    rw [readNat64_stop (hl a List.mem_cons_self) (by decide)]
    dsimp only
    cases t with
    | nil =>
      refine ⟨' ' :: Json.natText p, rfl, readNat64_blank _⟩
    | cons b t =>
      rw [readNats_blank _ (by simp), h1]
      exact ⟨s, rfl, h2⟩

theorem restore_save {m : Mt} (h : m.Valid) : Mt.restore m.save = some m := by
  obtain ⟨s, h1, h2⟩ := readNats_join m.words m.pos h.word
  unfold Mt.restore Mt.save
  rw [h.length] at h1
  rw [h1]
  dsimp only
  rw [h2, readNat64_end h.pos]

/-! ## Sampling by the bound -/

theorem sampleReaction_eq (W : World G) {g : Gen G} (hs : g.Sized g.values) :
    g.sampleReaction W = if g.reactions.isEmpty then some (.error .marleyError)
      else match g.bound W with
        | none => none
        | some (.error e) => some (.error e)
        | some (.ok m) =>
          match rejectLoop W.arith W.engine g.ePdf g.source.Emin g.source.Emax 1.01 W.fuel m g.eng
              g.values with
          | none => none
          | some (.error e) => some (.error e)
          | some (.ok r) =>
            match pickFrom W.engine r.st r.gen with
            | .error e => some (.error e)
            | .ok (i, eng) =>
              if i < g.reactions.length then
                some (.ok (i, r.x, { g with eng := eng, pdfMax := some r.fmax, values := r.st }))
              else some (.error .outOfRange) := by
  unfold Gen.sampleReaction Gen.bound rejectionSample
  split_ifs with h
  · rfl
  · cases hm : g.pdfMax with
    | some m => rfl
    | none =>
      dsimp only
      cases hx : maximize W.fuel g.ePdf g.source.Emin g.source.Emax 1e-8 g.values with
      | none => rfl
      | some v =>
        cases v with
        | error _ => rfl
        | ok v =>
          obtain ⟨x, m, t⟩ := v
          dsimp only
          rw [rejectLoop_cached (ePdf_cached g) W.fuel (m * 1.01) g.eng
            (maximize_keep (ePdf_cached g) _ _ _ _ hs hx) hs]
          rfl

/-! ## Two generators in step -/

/-- Generators that will make the same events. -/
structure Same (W : World G) (g h : Gen G) : Prop where
  eng : g.eng = h.eng
  norm : g.norm = h.norm
  config : SameConfig g h
  left : g.Ready
  right : h.Ready
  bound : g.bound W = h.bound W

theorem ePdf_congr {g h : Gen G} (c : SameConfig g h) (n : g.norm = h.norm) :
    g.ePdf = h.ePdf := by
  have hl : ∀ E rs j acc vals, g.pdfLoop E rs j acc vals = h.pdfLoop E rs j acc vals := by
    intro E rs
    induction rs with
    | nil => intros; rfl
    | cons r rs ih =>
      intros j acc vals
      simp only [Gen.pdfLoop, Gen.weighted, c.target, c.source, ih]
  funext E vals
  unfold Gen.ePdf
  rw [hl, n, c.source, c.reactions, c.weightFlux]

theorem apply_same {r q : Rotator} (hd : r.dir = q.dir) (hz : r.randomize = q.randomize)
    (hr : Consistent r) (hq : Consistent q) (pdir : V3) (ev : Event ℝ) :
    (∃ e, r.apply pdir ev = .error e ∧ q.apply pdir ev = .error e) ∨
    ∃ r' q' ev', r.apply pdir ev = .ok (r', ev') ∧ q.apply pdir ev = .ok (q', ev') ∧
      r'.dir = q'.dir ∧ r'.dir = r.dir ∧ r'.randomize = q'.randomize ∧ r'.randomize = r.randomize ∧
      Consistent r' ∧ Consistent q' := by
  by_cases h0 : pdir = r.dir
  · right
    refine ⟨r, q, ev, ?_, ?_, hd, rfl, hz, rfl, hr, hq⟩
    · rw [Rotator.apply, if_pos h0]
    · rw [Rotator.apply, if_pos (h0.trans hd)]
  · have h0' : ¬ pdir = q.dir := fun h => h0 (h.trans hd.symm)
    -- what either does, whether or not it remembers the direction
    have key : ∀ s : Rotator, s.dir = r.dir → Consistent s →
        (∃ e, Rot.rotationMatrix pdir r.dir = .error e ∧ s.apply pdir ev = .error e) ∨
        ∃ m, Rot.rotationMatrix pdir r.dir = .ok m ∧
          s.apply pdir ev = .ok ({ s with last := pdir, mat := m }, Rot.rotateEvent m ev) := by
      intro s hs hc
      have h0s : ¬ pdir = s.dir := fun h => h0 (h.trans hs)
      rw [Rotator.apply, if_neg h0s, hs]
      by_cases hl : pdir = s.last
      · rw [if_neg (not_not.2 hl)]
        rcases hc with hc | hc
        · exact absurd (hl.trans hc) h0s
        · right
          rw [← hl, hs] at hc
          refine ⟨s.mat, hc, ?_⟩
          cases s; cases hl; cases hs; rfl
      · rw [if_pos hl]
        cases hm : Rot.rotationMatrix pdir r.dir with
        | error e => left; exact ⟨e, rfl, rfl⟩
        | ok m => right; exact ⟨m, rfl, rfl⟩
    rcases key r rfl hr with ⟨e, h1, h2⟩ | ⟨m, h1, h2⟩
    · rcases key q hd.symm hq with ⟨e', h3, h4⟩ | ⟨m', h3, h4⟩
      · rw [h1] at h3; cases h3; exact Or.inl ⟨e, h2, h4⟩
      · rw [h1] at h3; cases h3
    · rcases key q hd.symm hq with ⟨e', h3, h4⟩ | ⟨m', h3, h4⟩
      · rw [h1] at h3; cases h3
      · rw [h1] at h3; cases h3
        exact Or.inr ⟨_, _, _, h2, h4, hd, rfl, hz, rfl, Or.inr h1, Or.inr (by rw [← hd]; exact h1)⟩

theorem process_same {r q : Rotator} (hd : r.randomize = true ∨ r.dir = q.dir) (hz : r.randomize = q.randomize)
    (hr : Consistent r) (hq : Consistent q) (ev : Event ℝ) (c phi : ℝ) :
    (∃ e, r.process ev c phi = .error e ∧ q.process ev c phi = .error e) ∨
    ∃ r' q' ev', r.process ev c phi = .ok (r', ev') ∧ q.process ev c phi = .ok (q', ev') ∧
      (r'.randomize = true ∨ r'.dir = q'.dir) ∧ r'.randomize = q'.randomize ∧ Consistent r' ∧ Consistent q' := by
  unfold Rotator.process
  cases ev.initial with
  | nil => exact Or.inl ⟨_, rfl, rfl⟩
  | cons p l =>
    dsimp only
    by_cases hp : Kin.momentum p ≤ 0
    · rw [if_pos hp, if_pos hp]
      exact Or.inr ⟨r, q, ev, rfl, rfl, hd, hz, hr, hq⟩
    · rw [if_neg hp, if_neg hp, ← hz]
      cases hrz : r.randomize with
      | true =>
        simp only [if_true]
        unfold Rotator.setDirection
        cases hn : Rot.normalize (Rot.isotropicDirection c phi) with
        | error e => exact Or.inl ⟨e, rfl, rfl⟩
        | ok d =>
          dsimp only
          rcases apply_same (r := { r with dir := d, last := d }) (q := { q with dir := d, last := d })
            rfl hz (Or.inl rfl) (Or.inl rfl) ⟨p.px / Kin.momentum p, p.py / Kin.momentum p,
              p.pz / Kin.momentum p⟩ ev with h | ⟨r', q', ev', a, b, c, -, d, -, e, f⟩
          · exact Or.inl h
          · exact Or.inr ⟨r', q', ev', a, b, Or.inr c, d, e, f⟩
      | false =>
        simp only [Bool.false_eq_true, if_false]
        have hd' : r.dir = q.dir := hd.resolve_left (by rw [hrz]; simp)
        rcases apply_same hd' hz hr hq ⟨p.px / Kin.momentum p, p.py / Kin.momentum p,
          p.pz / Kin.momentum p⟩ ev with h | ⟨r', q', ev', a, b, c, -, d, -, e, f⟩
        · exact Or.inl h
        · exact Or.inr ⟨r', q', ev', a, b, Or.inr c, d, e, f⟩

theorem direction_same (W : World G) {r q : Rotator} (hz : r.randomize = q.randomize)
    (ev : Event ℝ) (eng : G) : direction W r ev eng = direction W q ev eng := by
  unfold direction
  rw [hz]

theorem finish_same (W : World G) (b : Bool) {r q : Rotator} (hd : r.randomize = true ∨ r.dir = q.dir)
    (hz : r.randomize = q.randomize) (hr : Consistent r) (hq : Consistent q) (ev : Event ℝ)
    (eng : G) :
    (finish W b r ev eng = none ∧ finish W b q ev eng = none) ∨
    (∃ e, finish W b r ev eng = some (.error e) ∧ finish W b q ev eng = some (.error e)) ∨
    ∃ r' q' ev' eng', finish W b r ev eng = some (.ok (ev', r', eng')) ∧
      finish W b q ev eng = some (.ok (ev', q', eng')) ∧
      (r'.randomize = true ∨ r'.dir = q'.dir) ∧ r'.randomize = q'.randomize ∧ Consistent r' ∧ Consistent q' := by
  unfold finish
  generalize (if b then W.decay ev eng else some (.ok (ev, eng)) : Option (Res (Event ℝ × G))) = d
  cases d with
  | none => exact Or.inl ⟨rfl, rfl⟩
  | some d =>
    right
    cases d with
    | error e => exact Or.inl ⟨e, rfl, rfl⟩
    | ok d =>
      obtain ⟨ev, eng⟩ := d
      dsimp only
      rw [direction_same W hz]
      rcases process_same hd hz hr hq ev (direction W q ev eng).1 (direction W q ev eng).2.1 with
        ⟨e, h1, h2⟩ | ⟨r', q', ev', h1, h2, h3⟩
      · rw [h1, h2]; exact Or.inl ⟨e, rfl, rfl⟩
      · rw [h1, h2]; exact Or.inr ⟨r', q', ev', _, rfl, rfl, h3⟩

/-- What `sample_reaction` keeps. -/
theorem sampleReaction_keep {W : World G} {g g' : Gen G} (hs : g.Sized g.values) {i : Nat} {E : ℝ}
    (e : g.sampleReaction W = some (.ok (i, E, g'))) :
    ∃ m r, g.bound W = some (.ok m) ∧
      rejectLoop W.arith W.engine g.ePdf g.source.Emin g.source.Emax 1.01 W.fuel m g.eng g.values
        = some (.ok r) ∧ r.x = E ∧ pickFrom W.engine r.st r.gen = .ok (i, g'.eng) ∧
      i < g.reactions.length ∧
      g' = { g with eng := g'.eng, pdfMax := some r.fmax, values := r.st } := by
  rw [sampleReaction_eq W hs] at e
  by_cases hne : g.reactions.isEmpty = true
  · rw [if_pos hne] at e; cases e
  rw [if_neg hne] at e
  cases hb : g.bound W with
  | none => rw [hb] at e; cases e
  | some v =>
    rw [hb] at e
    cases v with
    | error _ => cases e
    | ok m =>
      dsimp only at e
      cases hr : rejectLoop W.arith W.engine g.ePdf g.source.Emin g.source.Emax 1.01 W.fuel m g.eng
          g.values with
      | none => rw [hr] at e; cases e
      | some v =>
        rw [hr] at e
        cases v with
        | error _ => cases e
        | ok r =>
          dsimp only at e
          cases hp : pickFrom W.engine r.st r.gen with
          | error _ => rw [hp] at e; cases e
          | ok q =>
            obtain ⟨i', eng⟩ := q
            rw [hp] at e
            dsimp only at e
            by_cases hi : i' < g.reactions.length
            on_goal 2 => rw [if_neg hi] at e; cases e
            rw [if_pos hi] at e
            cases e
            exact ⟨m, r, rfl, hr, rfl, hp, hi, rfl⟩

theorem sampleReaction_same {W : World G} {g h : Gen G} (s : Same W g h) :
    (g.sampleReaction W = none ∧ h.sampleReaction W = none) ∨
    (∃ e, g.sampleReaction W = some (.error e) ∧ h.sampleReaction W = some (.error e)) ∨
    ∃ i E g' h', g.sampleReaction W = some (.ok (i, E, g')) ∧
      h.sampleReaction W = some (.ok (i, E, h')) ∧ g'.pdfMax.isSome ∧ g'.pdfMax = h'.pdfMax ∧
      Same W g' h' := by
  have hf := ePdf_congr s.config s.norm
  have hsz : g.Sized h.values := by
    unfold Gen.Sized; rw [s.config.reactions]; exact s.right.sized
  have hr : ∀ m, rejectLoop W.arith W.engine h.ePdf h.source.Emin h.source.Emax 1.01 W.fuel m h.eng
      h.values = rejectLoop W.arith W.engine g.ePdf g.source.Emin g.source.Emax 1.01 W.fuel m g.eng
      g.values := by
    intro m
    rw [← hf, ← s.config.source, ← s.eng]
    exact rejectLoop_cached (ePdf_cached g) _ _ _ hsz s.left.sized
  rw [sampleReaction_eq W s.left.sized, sampleReaction_eq W s.right.sized, ← s.bound,
    ← s.config.reactions]
  simp only [hr]
  split_ifs with he
  · exact Or.inr (Or.inl ⟨_, rfl, rfl⟩)
  cases hb : g.bound W with
  | none => exact Or.inl ⟨rfl, rfl⟩
  | some v =>
    cases v with
    | error e => exact Or.inr (Or.inl ⟨e, rfl, rfl⟩)
    | ok m =>
      dsimp only
      cases hl : rejectLoop W.arith W.engine g.ePdf g.source.Emin g.source.Emax 1.01 W.fuel m g.eng
          g.values with
      | none => exact Or.inl ⟨rfl, rfl⟩
      | some v =>
        cases v with
        | error e => exact Or.inr (Or.inl ⟨e, rfl, rfl⟩)
        | ok r =>
          dsimp only
          cases hp : pickFrom W.engine r.st r.gen with
          | error e => exact Or.inr (Or.inl ⟨e, rfl, rfl⟩)
          | ok q =>
            obtain ⟨i, eng⟩ := q
            dsimp only
            split_ifs with hi
            · refine Or.inr (Or.inr ⟨i, r.x, _, _, rfl, rfl, rfl, rfl, ?_⟩)
              obtain ⟨v, hv, -⟩ := rejectLoop_last (ePdf_cached g) _ _ _ s.left.sized hl
              have hst : g.Sized r.st := (ePdf_cached g).keep _ _ _ _ s.left.sized hv
              exact ⟨rfl, s.norm, ⟨s.config.source, s.config.target, rfl,
                s.config.weightFlux, s.config.deexcite, s.config.default, s.config.dir,
                s.config.randomize⟩, ⟨hst, s.left.rotator⟩, ⟨hst, s.right.rotator⟩, rfl⟩
            · exact Or.inr (Or.inl ⟨_, rfl, rfl⟩)

theorem createEvent_same {W : World G} {g h : Gen G} (s : Same W g h) :
    (g.createEvent W = none ∧ h.createEvent W = none) ∨
    (∃ e, g.createEvent W = some (.error e) ∧ h.createEvent W = some (.error e)) ∨
    ∃ ev g' h', g.createEvent W = some (.ok (ev, g')) ∧ h.createEvent W = some (.ok (ev, h')) ∧
      Same W g' h' := by
  unfold Gen.createEvent
  rcases sampleReaction_same s with ⟨h1, h2⟩ | ⟨e, h1, h2⟩ | ⟨i, E, g', h', h1, h2, hm, hm', s'⟩
  · rw [h1, h2]; exact Or.inl ⟨rfl, rfl⟩
  · rw [h1, h2]; exact Or.inr (Or.inl ⟨e, rfl, rfl⟩)
  · rw [h1, h2]
    dsimp only
    rw [← s'.config.reactions, ← s'.config.source, ← s'.eng, ← s'.config.deexcite]
    cases hr : g'.reactions[i]? with
    | none => exact Or.inr (Or.inl ⟨_, rfl, rfl⟩)
    | some rx =>
      dsimp only
      cases hc : rx.create g'.source.pid E g'.eng with
      | none => exact Or.inl ⟨rfl, rfl⟩
      | some v =>
        cases v with
        | error e => exact Or.inr (Or.inl ⟨e, rfl, rfl⟩)
        | ok v =>
          obtain ⟨ev, eng⟩ := v
          dsimp only
          rcases finish_same W g'.deexcite s'.config.dir s'.config.randomize s'.left.rotator
            s'.right.rotator ev eng with ⟨h3, h4⟩ | ⟨e, h3, h4⟩ | ⟨r, q, ev', eng', h3, h4, h5, h6, h7, h8⟩
          · rw [h3, h4]; exact Or.inl ⟨rfl, rfl⟩
          · rw [h3, h4]; exact Or.inr (Or.inl ⟨e, rfl, rfl⟩)
          · rw [h3, h4]
            refine Or.inr (Or.inr ⟨ev', _, _, rfl, rfl, ?_⟩)
            exact ⟨rfl, s'.norm, ⟨rfl, s'.config.target, rfl,
                s'.config.weightFlux, rfl, s'.config.default, h5, h6⟩,
                ⟨s'.left.sized, h7⟩, ⟨by rw [s'.config.reactions]; exact s'.right.sized, h8⟩, by
                  obtain ⟨m, hm⟩ := Option.isSome_iff_exists.1 hm
                  unfold Gen.bound
                  rw [← hm', hm]⟩

theorem run_same {W : World G} {g h : Gen G} (s : Same W g h) (k : Nat) : g.run W k = h.run W k := by
  unfold Gen.run
  induction k generalizing g h with
  | zero => rfl
  | succ k ih =>
    simp only [Gen.createEvents]
    rcases createEvent_same s with ⟨h1, h2⟩ | ⟨e, h1, h2⟩ | ⟨ev, g', h', h1, h2, s'⟩
    · rw [h1, h2]
    · rw [h1, h2]
    · rw [h1, h2]
      dsimp only
      have := ih s'
      cases h3 : g'.createEvents W k with
      | none =>
        rw [h3] at this
        cases h4 : h'.createEvents W k with
        | none => rfl
        | some v => rw [h4] at this; cases this
      | some v =>
        rw [h3] at this
        cases h4 : h'.createEvents W k with
        | none => rw [h4] at this; cases this
        | some w =>
          rw [h4] at this
          cases v with
          | error e => cases w with
            | error e' => cases this; rfl
            | ok w => cases this
          | ok v => cases w with
            | error e' => cases this
            | ok w =>
              simp only [Option.map_some, Except.map, Option.some.injEq, Except.ok.injEq] at this ⊢
              rw [this]

/-! ## What an event leaves unchanged -/

theorem process_keep {r r' : Rotator} (hr : Consistent r) {ev ev' : Event ℝ} {c phi : ℝ}
    (e : r.process ev c phi = .ok (r', ev')) :
    (r.randomize = true ∨ r.dir = r'.dir) ∧ r.randomize = r'.randomize ∧ Consistent r' := by
  have ap : ∀ {q : Rotator} {p : V3}, Consistent q → q.apply p ev = .ok (r', ev') →
      q.dir = r'.dir ∧ q.randomize = r'.randomize ∧ Consistent r' := by
    intro q p hq e
    unfold Rotator.apply at e
    split_ifs at e with h1 h2
    · cases e; exact ⟨rfl, rfl, hq⟩
    · cases hm : Rot.rotationMatrix p q.dir with
      | error _ => rw [hm] at e; cases e
      | ok m => rw [hm] at e; cases e; exact ⟨rfl, rfl, Or.inr hm⟩
    · cases e; exact ⟨rfl, rfl, hq⟩
  unfold Rotator.process at e
  cases hi : ev.initial with
  | nil => rw [hi] at e; cases e
  | cons p l =>
    rw [hi] at e
    dsimp only at e
    split_ifs at e with h1 h2
    · cases e; exact ⟨Or.inr rfl, rfl, hr⟩
    · unfold Rotator.setDirection at e
      cases hn : Rot.normalize (Rot.isotropicDirection c phi) with
      | error _ => rw [hn] at e; cases e
      | ok d =>
        rw [hn] at e
        dsimp only at e
        obtain ⟨-, h4, h5⟩ := ap (Or.inl rfl) e
        exact ⟨Or.inl h2, h4, h5⟩
    · obtain ⟨h3, h4, h5⟩ := ap hr e
      exact ⟨Or.inr h3, h4, h5⟩

/-- The generator after an event differs from the one before in the engine, the
cache, the bound and the rotator only. -/
theorem createEvent_keep {W : World G} {g g' : Gen G} (hg : g.Ready) {ev : Event ℝ}
    (e : g.createEvent W = some (.ok (ev, g'))) :
    SameConfig g g' ∧ g'.norm = g.norm ∧ g'.Ready ∧
      ∃ m r, g.bound W = some (.ok m) ∧ g'.pdfMax = some r.fmax ∧
        rejectLoop W.arith W.engine g.ePdf g.source.Emin g.source.Emax 1.01 W.fuel m g.eng g.values
        = some (.ok r) := by
  unfold Gen.createEvent at e
  cases hs : g.sampleReaction W with
  | none => rw [hs] at e; cases e
  | some v =>
    rw [hs] at e
    cases v with
    | error _ => cases e
    | ok v =>
      obtain ⟨i, E, k⟩ := v
      dsimp only at e
      obtain ⟨m, r, h1, h2, -, -, -, hk⟩ := sampleReaction_keep hg.sized hs
      cases hr : k.reactions[i]? with
      | none => rw [hr] at e; cases e
      | some rx =>
        rw [hr] at e
        dsimp only at e
        cases hc : rx.create k.source.pid E k.eng with
        | none => rw [hc] at e; cases e
        | some v =>
          rw [hc] at e
          cases v with
          | error _ => cases e
          | ok v =>
            obtain ⟨ev1, eng1⟩ := v
            dsimp only at e
            cases hf : finish W k.deexcite k.rotator ev1 eng1 with
            | none => rw [hf] at e; cases e
            | some v =>
              rw [hf] at e
              cases v with
              | error _ => cases e
              | ok v =>
                obtain ⟨ev2, q, eng2⟩ := v
                cases e
                have hkr : k.rotator = g.rotator := by rw [hk]
                have hp : ∃ ev3 ev4 c phi, k.rotator.process ev3 c phi = .ok (q, ev4) := by
                  unfold finish at hf
                  generalize (if k.deexcite then W.decay ev1 eng1 else some (.ok (ev1, eng1)) :
                    Option (Res (Event ℝ × G))) = d at hf
                  cases d with
                  | none => cases hf
                  | some d => cases d with
                    | error _ => cases hf
                    | ok d =>
                      dsimp only at hf
                      split at hf
                      · cases hf
                      · next h => cases hf; exact ⟨_, _, _, _, h⟩
                obtain ⟨ev3, ev4, c, phi, hp⟩ := hp
                rw [hkr] at hp
                obtain ⟨p1, p2, p3⟩ := process_keep hg.rotator hp
                obtain ⟨v, hv, -⟩ := rejectLoop_last (ePdf_cached g) _ _ _ hg.sized h2
                have hst : g.Sized r.st := (ePdf_cached g).keep _ _ _ _ hg.sized hv
                rw [hk]
                exact ⟨⟨rfl, rfl, rfl, rfl, rfl, rfl, p1, p2⟩, rfl, ⟨hst, p3⟩, m, r, h1, rfl, h2⟩

theorem bound_congr {W : World G} {g h : Gen G} (c : SameConfig g h) (n : g.norm = h.norm)
    (hg : g.Ready) (hh : h.Ready) (hm : g.pdfMax = h.pdfMax) : g.bound W = h.bound W := by
  unfold Gen.bound
  rw [← hm, ← ePdf_congr c n, ← c.source,
    maximize_cached (ePdf_cached g) W.fuel g.source.Emin g.source.Emax 1e-8 (s := h.values)
      (t := g.values) (by unfold Gen.Sized; rw [c.reactions]; exact hh.sized) hg.sized]

theorem SameConfig.refl (g : Gen G) : SameConfig g g :=
  ⟨rfl, rfl, rfl, rfl, rfl, rfl, Or.inr rfl, rfl⟩

theorem SameConfig.symm {g h : Gen G} (c : SameConfig g h) : SameConfig h g :=
  ⟨c.source.symm, c.target.symm, c.reactions.symm, c.weightFlux.symm, c.deexcite.symm,
    c.default.symm, c.dir.imp (fun x => c.randomize ▸ x) Eq.symm, c.randomize.symm⟩

theorem SameConfig.trans {g h k : Gen G} (c : SameConfig g h) (d : SameConfig h k) :
    SameConfig g k :=
  ⟨c.source.trans d.source, c.target.trans d.target, c.reactions.trans d.reactions,
    c.weightFlux.trans d.weightFlux, c.deexcite.trans d.deexcite, c.default.trans d.default,
    c.dir.elim Or.inl (fun x => d.dir.imp (fun y => c.randomize.trans y) (fun y => x.trans y)),
    c.randomize.trans d.randomize⟩

/-- As long as the bound is a bound it stays the same. -/
theorem createEvents_keep {W : World G} {g g' : Gen G} {m : ℝ} (hg : g.Ready)
    (hb : g.bound W = some (.ok m))
    (hd : ∀ E vals d vals', g.Sized vals → g.ePdf E vals = .ok (d, vals') → d ≤ m)
    (n : Nat) {evs : List (Event ℝ)} (e : g.createEvents W n = some (.ok (evs, g'))) :
    SameConfig g g' ∧ g'.norm = g.norm ∧ g'.Ready ∧ g'.bound W = some (.ok m) := by
  induction n generalizing g evs with
  | zero => cases e; exact ⟨.refl _, rfl, hg, hb⟩
  | succ n ih =>
    rw [Gen.createEvents] at e
    cases he : g.createEvent W with
    | none => rw [he] at e; cases e
    | some v =>
      rw [he] at e
      cases v with
      | error _ => cases e
      | ok v =>
        obtain ⟨ev, k⟩ := v
        dsimp only at e
        cases hk : k.createEvents W n with
        | none => rw [hk] at e; cases e
        | some v =>
          rw [hk] at e
          cases v with
          | error _ => cases e
          | ok v =>
            obtain ⟨evs', k'⟩ := v
            cases e
            obtain ⟨c, hn, hr, m', r, h1, h2, h3⟩ := createEvent_keep hg he
            rw [hb] at h1
            cases h1
            have hfm := rejectLoop_bound (ePdf_cached g) _ _ _ hg.sized
              (fun x s v t hs hv => hd x s v t hs hv) h3
            have hf := ePdf_congr c hn.symm
            obtain ⟨c', hn', hr', hb'⟩ := ih hr (by unfold Gen.bound; rw [h2, hfm])
              (fun E vals d vals' hs hv => hd E vals d vals'
                (by unfold Gen.Sized at hs ⊢; rw [c.reactions]; exact hs) (by rw [hf]; exact hv)) hk
            exact ⟨c.trans c', hn'.trans hn, hr', hb'⟩

end Marley.Gen
