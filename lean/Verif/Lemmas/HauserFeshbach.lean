import Verif.Spec.Decay
import Verif.Lemmas.Discrete

/-!
# The list of exit channels
-/

set_option autoImplicit false

namespace Marley.Decay
open Marley
open Marley.Scheme (Scheme Level)
open Marley.Structure (Fragment)

/-- The width of a channel. -/
noncomputable def kindWidth (D : Data) (c : Parent) : Kind → Res ℝ
  | .fragLevel f l => fragDiscreteWidth D c f l
  | .gamLevel l => .ok (gamDiscreteWidth D c l)
  | .fragCont f E => contWidth D c (.fragCont f E)
  | .gamCont E => contWidth D c (.gamCont E)

/-- `s'` is `s` with channels of the kinds `ks` appended. -/
structure Appends (D : Data) (c : Parent) (s s' : Channels) (ks : List Kind) : Prop where
  kinds : s'.2.map (·.kind) = s.2.map (·.kind) ++ ks
  total : s.1 = (s.2.map (·.width)).sum → s'.1 = (s'.2.map (·.width)).sum
  widths : (∀ x ∈ s.2, kindWidth D c x.kind = .ok x.width) →
    ∀ x ∈ s'.2, kindWidth D c x.kind = .ok x.width

theorem Appends.refl (D : Data) (c : Parent) (s : Channels) : Appends D c s s [] :=
  ⟨by simp, id, id⟩

theorem Appends.trans {D : Data} {c : Parent} {s t u : Channels} {a b : List Kind}
    (h : Appends D c s t a) (h' : Appends D c t u b) : Appends D c s u (a ++ b) :=
  ⟨by rw [h'.kinds, h.kinds, List.append_assoc], h'.total ∘ h.total, h'.widths ∘ h.widths⟩

theorem Appends.push {D : Data} {c : Parent} {k : Kind} {w : ℝ} (h : kindWidth D c k = .ok w)
    (s : Channels) : Appends D c s (s.push k w) [k] := by
  refine ⟨by simp [Channels.push], fun e => ?_, fun e x hx => ?_⟩
  · simp [Channels.push, e]
  · simp only [Channels.push, List.mem_append, List.mem_singleton] at hx
    rcases hx with hx | rfl
    · exact e x hx
    · exact h

/-- The levels of a scheme, if there is one. -/
def levelsOf : Option (Scheme ℝ) → List (Nat × Level ℝ)
  | none => []
  | some d => d.levels

theorem levelLoop_appends {D : Data} {c : Parent} {kind : Level ℝ → Kind} {width : Level ℝ → Res ℝ}
    (hk : ∀ l w, width l = .ok w → kindWidth D c (kind l) = .ok w) {max : ℝ}
    {ls : List (Nat × Level ℝ)} {s s' : Channels} (h : levelLoop kind width max ls s = .ok s') :
    Appends D c s s' ((ls.takeWhile (fun l => decide (l.2.energy < max))).map (fun l => kind l.2)) := by
  induction ls generalizing s with
  | nil =>
    simp only [levelLoop, Except.ok.injEq] at h
    subst h
    exact Appends.refl D c s
  | cons l t ih =>
    unfold levelLoop at h
    by_cases hl : l.2.energy < max
    · rw [if_pos hl] at h
      cases hw : width l.2 with
      | error e => rw [hw] at h; simp at h
      | ok w =>
        rw [hw] at h
        have := (Appends.push (hk _ _ hw) s).trans (ih h)
        simpa [List.takeWhile_cons, hl] using this
    · rw [if_neg hl] at h
      cases h
      simpa [List.takeWhile_cons, hl] using Appends.refl D c s'

/-- The kinds of channels to one final nucleus. -/
noncomputable def kindsTo (ds : Option (Scheme ℝ)) (max : ℝ) (lev : Level ℝ → Kind) (cont : ℝ → Kind) :
    List Kind :=
  ((levelsOf ds).takeWhile (fun l => decide (l.2.energy < max))).map (fun l => lev l.2) ++
    if max > contMin ds then [cont (contMin ds)] else []

theorem addChannels_appends {D : Data} {c : Parent} {ds : Option (Scheme ℝ)} {max : ℝ}
    {lev : Level ℝ → Kind} {width : Level ℝ → Res ℝ} {cont : ℝ → Kind}
    (hk : ∀ l w, width l = .ok w → kindWidth D c (lev l) = .ok w)
    (hc : ∀ E, kindWidth D c (cont E) = contWidth D c (cont E)) {s s' : Channels}
    (h : addChannels D c ds max lev width cont s = .ok s') :
    Appends D c s s' (kindsTo ds max lev cont) := by
  unfold addChannels at h
  replace h : (match levelLoop lev width max (levelsOf ds) s with
      | .error e => .error e
      | .ok s =>
        if max > contMin ds then
          match contWidth D c (cont (contMin ds)) with
          | .error e => .error e
          | .ok w => .ok (s.push (cont (contMin ds)) w)
        else .ok s : Res Channels) = .ok s' := by
    cases ds <;> exact h
  cases h1 : levelLoop lev width max (levelsOf ds) s with
  | error e => rw [h1] at h; simp at h
  | ok t =>
    have a1 := levelLoop_appends (D := D) (c := c) hk h1
    rw [h1] at h
    dsimp only at h
    unfold kindsTo
    by_cases hm : max > contMin ds
    · rw [if_pos hm] at h ⊢
      cases hw : contWidth D c (cont (contMin ds)) with
      | error e => rw [hw] at h; simp at h
      | ok w =>
        rw [hw] at h
        cases h
        exact a1.trans (Appends.push (by rw [hc, hw]) t)
    · rw [if_neg hm] at h ⊢
      cases h
      rwa [List.append_nil]

/-- The kinds of channels emitting one fragment. -/
noncomputable def fragKinds (D : Data) (c : Parent) (f : Fragment) : List Kind :=
  match Mass.separationEnergyPid D.mass c.pdg f.pid true, D.scheme (remnant c.pdg f.pid) with
  | .ok (some Sa), .ok ds =>
    if c.Ex - Sa ≤ 0 then [] else kindsTo ds (c.Ex - Sa) (.fragLevel f.pid) (.fragCont f.pid)
  | _, _ => []

theorem addFragment_appends {D : Data} {c : Parent} {f : Fragment} {s s' : Channels}
    (h : addFragment D c f s = .ok s') : Appends D c s s' (fragKinds D c f) := by
  unfold addFragment at h
  unfold fragKinds
  cases h1 : Mass.particleMass D.mass f.pid with
  | error e => rw [h1] at h; simp at h
  | ok m =>
    rw [h1] at h
    dsimp only at h
    rw [show Mass.separationEnergyPid D.mass c.pdg f.pid true
      = Mass.separationEnergy D.mass (Pdg.getZ c.pdg) (Pdg.getA c.pdg) f.pid true from rfl]
    cases h2 : Mass.separationEnergy D.mass (Pdg.getZ c.pdg) (Pdg.getA c.pdg) f.pid true with
    | error e => rw [h2] at h; simp at h
    | ok Sa =>
      rw [h2] at h
      dsimp only at h
      cases h3 : D.scheme (remnant c.pdg f.pid) with
      | error e => rw [h3] at h; simp at h
      | ok ds =>
        rw [h3] at h
        dsimp only at h
        cases Sa with
        | none =>
          simp only [Except.ok.injEq] at h
          subst h
          exact Appends.refl D c s
        | some Sa =>
          dsimp only at h ⊢
          by_cases h4 : c.Ex - Sa ≤ 0
          · rw [if_pos h4] at h ⊢
            cases h
            exact Appends.refl D c s
          · rw [if_neg h4] at h ⊢
            exact addChannels_appends (fun _ _ h => h) (fun _ => rfl) h

/-- If a channel list can be built, the scheme of every fragment's final nucleus can be
read and its separation energy is known or not a number. -/
theorem addFragment_data {D : Data} {c : Parent} {f : Fragment} {s s' : Channels}
    (h : addFragment D c f s = .ok s') : ∃ ds, D.scheme (remnant c.pdg f.pid) = .ok ds := by
  unfold addFragment at h
  cases h1 : Mass.particleMass D.mass f.pid with
  | error e => rw [h1] at h; simp at h
  | ok m =>
    rw [h1] at h
    dsimp only at h
    cases h2 : Mass.separationEnergy D.mass (Pdg.getZ c.pdg) (Pdg.getA c.pdg) f.pid true with
    | error e => rw [h2] at h; simp at h
    | ok Sa =>
      rw [h2] at h
      dsimp only at h
      cases h3 : D.scheme (remnant c.pdg f.pid) with
      | error e => rw [h3] at h; simp at h
      | ok ds => exact ⟨ds, rfl⟩

theorem fragmentLoop_appends {D : Data} {c : Parent} {fs : List Fragment} {s s' : Channels}
    (h : fragmentLoop D c fs s = .ok s') : Appends D c s s' (fs.flatMap (fragKinds D c)) ∧
      ∀ f ∈ fs, ∃ ds, D.scheme (remnant c.pdg f.pid) = .ok ds := by
  induction fs generalizing s with
  | nil =>
    simp only [fragmentLoop, Except.ok.injEq] at h
    subst h
    exact ⟨Appends.refl D c s, by simp⟩
  | cons f t ih =>
    unfold fragmentLoop at h
    cases h1 : addFragment D c f s with
    | error e => rw [h1] at h; simp at h
    | ok u =>
      rw [h1] at h
      obtain ⟨i1, i2⟩ := ih h
      rw [List.flatMap_cons]
      refine ⟨(addFragment_appends h1).trans i1, fun x hx => ?_⟩
      rcases List.mem_cons.1 hx with rfl | hx
      · exact addFragment_data h1
      · exact i2 x hx

/-- The kinds of all channels of a nucleus. -/
theorem channels_kinds {D : Data} {c : Parent} {s : Channels} (h : channels D c = .ok s) :
    ∃ ds, D.scheme c.pdg = .ok ds ∧ Appends D c (0, []) s
      (D.frags.flatMap (fragKinds D c) ++ kindsTo ds c.Ex .gamLevel .gamCont) ∧
      ∀ f ∈ D.frags, ∃ ds, D.scheme (remnant c.pdg f.pid) = .ok ds := by
  unfold channels at h
  cases h1 : fragmentLoop D c D.frags (0, []) with
  | error e => rw [h1] at h; simp at h
  | ok t =>
    rw [h1] at h
    dsimp only at h
    unfold addGammas at h
    cases h2 : D.scheme c.pdg with
    | error e => rw [h2] at h; simp at h
    | ok ds =>
      rw [h2] at h
      dsimp only at h
      obtain ⟨a1, a2⟩ := fragmentLoop_appends h1
      refine ⟨ds, rfl, a1.trans (addChannels_appends (fun l w e => e) (fun _ => rfl) h), a2⟩

/-! ## Members -/

theorem mem_takeWhile_sorted {ls : List (Nat × Level ℝ)}
    (hs : ls.Pairwise (fun a b => a.2.energy ≤ b.2.energy)) (max : ℝ) (l : Nat × Level ℝ) :
    l ∈ ls.takeWhile (fun l => decide (l.2.energy < max)) ↔ l ∈ ls ∧ l.2.energy < max := by
  induction ls with
  | nil => simp
  | cons x t ih =>
    rw [List.pairwise_cons] at hs
    by_cases hx : x.2.energy < max
    · rw [List.takeWhile_cons_of_pos (by simpa using hx), List.mem_cons, ih hs.2, List.mem_cons]
      constructor
      · rintro (rfl | ⟨h1, h2⟩)
        · exact ⟨Or.inl rfl, hx⟩
        · exact ⟨Or.inr h1, h2⟩
      · rintro ⟨rfl | h1, h2⟩
        · exact Or.inl rfl
        · exact Or.inr ⟨h1, h2⟩
    · rw [List.takeWhile_cons_of_neg (by simpa using hx)]
      simp only [List.not_mem_nil, List.mem_cons, false_iff, not_and, not_lt]
      rintro (rfl | h1)
      · exact not_lt.1 hx
      · exact le_trans (not_lt.1 hx) (hs.1 l h1)

/-- The lower end of the continuum is the energy of the highest known level. -/
theorem contMin_highest {D : Data} (hD : SortedSchemes D) {n : Int} {ds : Option (Scheme ℝ)}
    (h : D.scheme n = .ok ds) (E : ℝ) : Highest D n E ↔ E = contMin ds := by
  have none_case : (¬ ∃ lev, Known D n lev) → contMin ds = 0 → (Highest D n E ↔ E = contMin ds) := by
    intro h1 h2
    rw [h2]
    constructor
    · rintro (⟨lev, h3, -⟩ | ⟨-, h3⟩)
      · exact absurd ⟨lev, h3⟩ h1
      · exact h3
    · exact fun h3 => Or.inr ⟨h1, h3⟩
  cases ds with
  | none =>
    refine none_case ?_ rfl
    rintro ⟨lev, s, a, h1, -⟩
    rw [h] at h1
    cases h1
  | some s =>
    have hk : ∀ lev, Known D n lev ↔ ∃ a, (a, lev) ∈ s.levels := by
      intro lev
      constructor
      · rintro ⟨s', a, h1, h2⟩
        rw [h] at h1
        cases h1
        exact ⟨a, h2⟩
      · rintro ⟨a, h2⟩
        exact ⟨s, a, h, h2⟩
    obtain ⟨hs, -⟩ := hD n s h
    rcases List.eq_nil_or_concat s.levels with hl | ⟨t, l, hl⟩
    · refine none_case ?_ (by simp [contMin, hl])
      rintro ⟨lev, h1⟩
      obtain ⟨a, h1⟩ := (hk lev).1 h1
      rw [hl] at h1
      simp at h1
    · rw [List.concat_eq_append] at hl
      have hc : contMin (some s) = l.2.energy := by simp [contMin, hl]
      rw [hc]
      have top : ∀ lev, Known D n lev → lev.energy ≤ l.2.energy := by
        intro lev h1
        obtain ⟨a, h1⟩ := (hk lev).1 h1
        rw [hl] at h1 hs
        rcases List.mem_append.1 h1 with h1 | h1
        · exact (List.pairwise_append.1 hs).2.2 _ h1 l (by simp)
        · rw [List.mem_singleton] at h1
          rw [← h1]
      have kl : Known D n l.2 := (hk _).2 ⟨l.1, by rw [hl]; simp⟩
      constructor
      · rintro (⟨lev, h1, rfl, h2⟩ | ⟨h1, -⟩)
        · exact le_antisymm (top lev h1) (h2 _ kl)
        · exact absurd ⟨_, kl⟩ h1
      · rintro rfl
        exact Or.inl ⟨l.2, kl, rfl, top⟩

theorem Highest.nonneg {D : Data} (hD : SortedSchemes D) {n : Int} {E : ℝ} (h : Highest D n E) :
    0 ≤ E := by
  rcases h with ⟨lev, ⟨s, a, h1, h2⟩, rfl, -⟩ | ⟨-, rfl⟩
  · exact (hD n s h1).2 _ h2
  · exact le_rfl

theorem Known.nonneg {D : Data} (hD : SortedSchemes D) {n : Int} {lev : Level ℝ}
    (h : Known D n lev) : 0 ≤ lev.energy := by
  obtain ⟨s, a, h1, h2⟩ := h
  exact (hD n s h1).2 _ h2

theorem mem_kindsTo {D : Data} (hD : SortedSchemes D) {n : Int} {ds : Option (Scheme ℝ)}
    (h : D.scheme n = .ok ds) (max : ℝ) (lev : Level ℝ → Kind) (cont : ℝ → Kind) (k : Kind) :
    k ∈ kindsTo ds max lev cont ↔ (∃ l, Known D n l ∧ l.energy < max ∧ k = lev l) ∨
      ∃ E, Highest D n E ∧ E < max ∧ k = cont E := by
  unfold kindsTo
  rw [List.mem_append]
  refine or_congr ?_ ?_
  · simp only [List.mem_map]
    cases ds with
    | none =>
      simp only [levelsOf, List.takeWhile_nil, List.not_mem_nil, false_and, exists_false, false_iff]
      rintro ⟨l, ⟨s, a, h1, -⟩, -⟩
      rw [h] at h1
      cases h1
    | some s =>
      obtain ⟨hs, -⟩ := hD n s h
      constructor
      · rintro ⟨l, h1, rfl⟩
        obtain ⟨h2, h3⟩ := (mem_takeWhile_sorted hs max l).1 h1
        exact ⟨l.2, ⟨s, l.1, h, h2⟩, h3, rfl⟩
      · rintro ⟨l, ⟨s', a, h1, h2⟩, h3, rfl⟩
        rw [h] at h1
        cases h1
        exact ⟨(a, l), (mem_takeWhile_sorted hs max (a, l)).2 ⟨h2, h3⟩, rfl⟩
  · constructor
    · intro h1
      by_cases h2 : max > contMin ds
      · rw [if_pos h2, List.mem_singleton] at h1
        exact ⟨_, (contMin_highest hD h _).2 rfl, h2, h1⟩
      · rw [if_neg h2] at h1
        simp at h1
    · rintro ⟨E, h1, h2, rfl⟩
      rw [contMin_highest hD h] at h1
      subst h1
      rw [if_pos h2]
      simp

/-- The kinds offered are exactly the possible ones. -/
theorem mem_channels {D : Data} (hD : SortedSchemes D) {c : Parent} {s : Channels}
    (h : channels D c = .ok s) (k : Kind) :
    k ∈ s.2.map (·.kind) ↔ Possible D c.pdg c.Ex k := by
  obtain ⟨ds, h1, h2, h3⟩ := channels_kinds h
  rw [h2.kinds]
  simp only [List.map_nil, List.nil_append, List.mem_append, List.mem_flatMap]
  rw [mem_kindsTo hD h1]
  have hf : ∀ f ∈ D.frags, k ∈ fragKinds D c f ↔
      ∃ S, Mass.separationEnergyPid D.mass c.pdg f.pid true = .ok (some S) ∧
        ((∃ l, Known D (remnant c.pdg f.pid) l ∧ l.energy < c.Ex - S ∧ k = .fragLevel f.pid l) ∨
          ∃ E, Highest D (remnant c.pdg f.pid) E ∧ E < c.Ex - S ∧ k = .fragCont f.pid E) := by
    intro f hf
    obtain ⟨ds, h4⟩ := h3 f hf
    unfold fragKinds
    rw [h4]
    cases h5 : Mass.separationEnergyPid D.mass c.pdg f.pid true with
    | error e => simp
    | ok S =>
      cases S with
      | none => simp
      | some S =>
        dsimp only
        by_cases h6 : c.Ex - S ≤ 0
        · rw [if_pos h6]
          simp only [List.not_mem_nil, false_iff]
          rintro ⟨S', e, ⟨l, h7, h8, -⟩ | ⟨E, h7, h8, -⟩⟩
          · cases e
            have := h7.nonneg hD
            linarith
          · cases e
            have := h7.nonneg hD
            linarith
        · rw [if_neg h6, mem_kindsTo hD h4]
          constructor
          · exact fun h7 => ⟨S, rfl, h7⟩
          · rintro ⟨S', e, h7⟩
            cases e
            exact h7
  constructor
  · rintro (⟨f, h4, h5⟩ | ⟨l, h4, h5, rfl⟩ | ⟨E, h4, h5, rfl⟩)
    · obtain ⟨S, h6, ⟨l, h7, h8, rfl⟩ | ⟨E, h7, h8, rfl⟩⟩ := (hf f h4).1 h5
      · exact ⟨S, ⟨⟨f, h4, rfl⟩, h6⟩, h7, h8⟩
      · exact ⟨S, ⟨⟨f, h4, rfl⟩, h6⟩, h7, h8⟩
    · exact ⟨0, rfl, h4, by simpa using h5⟩
    · exact ⟨0, rfl, h4, by simpa using h5⟩
  · rintro ⟨S, h4, h5⟩
    cases k with
    | fragLevel f l =>
      obtain ⟨⟨x, h6, rfl⟩, h7⟩ := h4
      exact Or.inl ⟨x, h6, (hf x h6).2 ⟨S, h7, Or.inl ⟨l, h5.1, h5.2, rfl⟩⟩⟩
    | fragCont f E =>
      obtain ⟨⟨x, h6, rfl⟩, h7⟩ := h4
      exact Or.inl ⟨x, h6, (hf x h6).2 ⟨S, h7, Or.inr ⟨E, h5.1, h5.2, rfl⟩⟩⟩
    | gamLevel l =>
      have : S = 0 := h4
      subst this
      exact Or.inr (Or.inl ⟨l, h5.1, by simpa using h5.2, rfl⟩)
    | gamCont E =>
      have : S = 0 := h4
      subst this
      exact Or.inr (Or.inr ⟨E, h5.1, by simpa using h5.2, rfl⟩)

/-! ## Each once -/

theorem nodup_kindsTo {ds : Option (Scheme ℝ)} (hn : ((levelsOf ds).map (·.2)).Nodup) (max : ℝ)
    {lev : Level ℝ → Kind} {cont : ℝ → Kind} (hl : Function.Injective lev)
    (hlc : ∀ l E, lev l ≠ cont E) : (kindsTo ds max lev cont).Nodup := by
  unfold kindsTo
  rw [List.nodup_append]
  refine ⟨?_, by split_ifs <;> simp, ?_⟩
  · have : ((levelsOf ds).takeWhile (fun l => decide (l.2.energy < max))).map (fun l => lev l.2)
        = (((levelsOf ds).takeWhile (fun l => decide (l.2.energy < max))).map (·.2)).map lev := by
      rw [List.map_map]; rfl
    rw [this]
    exact ((List.takeWhile_sublist _).map _ |>.nodup hn).map hl
  · intro a ha b hb e
    obtain ⟨l, -, rfl⟩ := List.mem_map.1 ha
    by_cases h : max > contMin ds
    · rw [if_pos h, List.mem_singleton] at hb
      exact hlc _ _ (e.trans hb)
    · rw [if_neg h] at hb
      simp at hb

theorem nodup_channels {D : Data} (hn : (D.frags.map (·.pid)).Nodup)
    (hd : ∀ n s, D.scheme n = .ok (some s) → (s.levels.map (·.2)).Nodup) {c : Parent} {s : Channels}
    (h : channels D c = .ok s) : (s.2.map (·.kind)).Nodup := by
  obtain ⟨ds, h1, h2, h3⟩ := channels_kinds h
  have hd' : ∀ n ds, D.scheme n = .ok ds → ((levelsOf ds).map (·.2)).Nodup := by
    intro n ds e
    cases ds with
    | none => simp [levelsOf]
    | some s => exact hd n s e
  have hem : ∀ f k, k ∈ fragKinds D c f → (∃ l, k = .fragLevel f.pid l) ∨ ∃ E, k = .fragCont f.pid E := by
    intro f k hk
    unfold fragKinds at hk
    split at hk
    · split_ifs at hk
      · simp at hk
      · unfold kindsTo at hk
        rcases List.mem_append.1 hk with hk | hk
        · obtain ⟨l, -, rfl⟩ := List.mem_map.1 hk
          exact Or.inl ⟨_, rfl⟩
        · split_ifs at hk
          · rw [List.mem_singleton] at hk
            exact Or.inr ⟨_, hk⟩
          · simp at hk
    · simp at hk
  rw [h2.kinds]
  simp only [List.map_nil, List.nil_append]
  rw [List.nodup_append]
  refine ⟨?_, ?_, ?_⟩
  · rw [List.nodup_flatMap]
    refine ⟨fun f hf => ?_, ?_⟩
    · obtain ⟨ds, h4⟩ := h3 f hf
      unfold fragKinds
      rw [h4]
      split
      · rename_i S ds' e1 e2
        cases e2
        split_ifs
        · simp
        · exact nodup_kindsTo (hd' _ _ h4) _ (fun a b e => by simpa using e) (by simp)
      · simp
    · rw [List.pairwise_iff_getElem]
      intro i j hi hj hij
      have hp := List.pairwise_iff_getElem.1 hn i j (by simpa using hi) (by simpa using hj) hij
      simp only [List.getElem_map] at hp
      intro k hk1 hk2
      rcases hem _ k hk1 with ⟨l, rfl⟩ | ⟨l, rfl⟩ <;> rcases hem _ _ hk2 with ⟨l', e⟩ | ⟨l', e⟩ <;>
        simp at e
      · exact hp e.1
      · exact hp e.1
  · exact nodup_kindsTo (hd' _ _ h1) _ (fun a b e => by simpa using e) (by simp)
  · intro a ha b hb e
    subst e
    obtain ⟨f, -, hf⟩ := List.mem_flatMap.1 ha
    unfold kindsTo at hb
    rcases List.mem_append.1 hb with hb | hb
    · obtain ⟨l, -, rfl⟩ := List.mem_map.1 hb
      rcases hem _ _ hf with ⟨l', e⟩ | ⟨l', e⟩ <;> simp at e
    · split_ifs at hb
      · rw [List.mem_singleton] at hb
        subst hb
        rcases hem _ _ hf with ⟨l', e⟩ | ⟨l', e⟩ <;> simp at e
      · simp at hb

end Marley.Decay
