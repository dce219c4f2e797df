import Verif.Model.JobConfig
import Verif.Props.Reaction

/-! # Lemmas about job configurations -/

set_option autoImplicit false

namespace Marley.Job
open Marley
open Marley.Json (Str JVal)
open Marley.Reaction (Reaction Proc)

theorem atom_ok {p a : Int} (h : Target.atom p = .ok a) : a = p := by
  simp only [Target.atom] at h
  split_ifs at h
  simpa using h.symm

theorem loadListed_ok {v : Env} {name : JVal ℝ} {l : List Reaction} (h : loadListed v name = .ok l) :
    Reaction.load v.ctx (v.text (Files.findFileIn v.fs (textOf name) v.path)) = .ok l ∧ l ≠ [] := by
  simp only [loadListed] at h
  split_ifs at h with h1
  cases h2 : Reaction.load v.ctx (v.text (Files.findFileIn v.fs (textOf name) v.path)) with
  | error e => rw [h2] at h; cases h
  | ok rs =>
    rw [h2] at h; dsimp only at h
    split_ifs at h with h3
    cases h
    exact ⟨rfl, h3⟩

/-- The listed file is read as the reactions `r :: t`, filed under the pair `k`. -/
def Filed (v : Env) (name : JVal ℝ) (r : Reaction) (t : List Reaction) (k : Int × Proc) : Prop :=
  loadListed v name = .ok (r :: t) ∧ targetOf r = .ok k.1 ∧ k.2 = procOf r

theorem Filed.unique {v : Env} {name : JVal ℝ} {r r' : Reaction} {t t' : List Reaction}
    {k k' : Int × Proc} (h : Filed v name r t k) (h' : Filed v name r' t' k') :
    r = r' ∧ t = t' ∧ k = k' := by
  have e := h.1.symm.trans h'.1
  simp only [Except.ok.injEq, List.cons.injEq] at e
  obtain ⟨rfl, rfl⟩ := e
  refine ⟨rfl, rfl, ?_⟩
  have e := h.2.1.symm.trans h'.2.1
  simp only [Except.ok.injEq] at e
  exact Prod.ext e (by rw [h.2.2, h'.2.2])

theorem reactionLoop_cons {v : Env} {loaded : List (Int × Proc)} {name : JVal ℝ}
    {names : List (JVal ℝ)} {rs : List Reaction}
    (h : reactionLoop v loaded (name :: names) = .ok rs) :
    ∃ r t k, Filed v name r t k ∧
      (k ∈ loaded ∧ reactionLoop v loaded names = .ok rs ∨
       k ∉ loaded ∧ ∃ rest, reactionLoop v (loaded ++ [k]) names = .ok rest ∧ rs = r :: t ++ rest) := by
  simp only [reactionLoop] at h
  cases h1 : loadListed v name with
  | error e => rw [h1] at h; cases h
  | ok l =>
    rw [h1] at h
    cases l with
    | nil => cases h
    | cons r t =>
      dsimp only at h
      cases h2 : targetOf r with
      | error e => rw [h2] at h; cases h
      | ok a =>
        rw [h2] at h; dsimp only at h
        cases h3 : logAtom v.log a with
        | error e => rw [h3] at h; cases h
        | ok u =>
          rw [h3] at h; dsimp only at h
          refine ⟨r, t, (a, procOf r), ⟨h1, h2, rfl⟩, ?_⟩
          by_cases h4 : (a, procOf r) ∈ loaded
          · rw [if_pos h4] at h; exact Or.inl ⟨h4, h⟩
          · rw [if_neg h4] at h
            cases h5 : reactionLoop v (loaded ++ [(a, procOf r)]) names with
            | error e => rw [h5] at h; cases h
            | ok rest =>
              rw [h5] at h; dsimp only at h
              cases h
              exact Or.inr ⟨h4, rest, rfl, rfl⟩

/-- Where the reactions come from. -/
theorem reactionLoop_from {v : Env} : ∀ {names : List (JVal ℝ)} {loaded : List (Int × Proc)}
    {rs : List Reaction}, reactionLoop v loaded names = .ok rs → ∀ x ∈ rs,
    ∃ name ∈ names, ∃ r t k, Filed v name r t k ∧ x ∈ r :: t ∧ k ∉ loaded := by
  intro names
  induction names with
  | nil => intro loaded rs h x hx; simp only [reactionLoop, Except.ok.injEq] at h; simp [← h] at hx
  | cons name names ih =>
    intro loaded rs h x hx
    obtain ⟨r, t, k, hf, ⟨hk, h⟩ | ⟨hk, rest, h, e⟩⟩ := reactionLoop_cons h
    · obtain ⟨n, hn, y⟩ := ih h x hx
      exact ⟨n, List.mem_cons_of_mem _ hn, y⟩
    · rw [e] at hx
      rcases List.mem_append.1 hx with hx | hx
      · exact ⟨name, List.mem_cons_self, r, t, k, hf, hx, hk⟩
      · obtain ⟨n, hn, r', t', k', h1, h2, h3⟩ := ih h x hx
        exact ⟨n, List.mem_cons_of_mem _ hn, r', t', k', h1, h2,
          fun hk' => h3 (List.mem_append_left _ hk')⟩

/-- Every listed file is read; its reactions are added unless a file with the same
pair came before. -/
theorem reactionLoop_all {v : Env} : ∀ {names : List (JVal ℝ)} {loaded : List (Int × Proc)}
    {rs : List Reaction}, reactionLoop v loaded names = .ok rs → ∀ name ∈ names,
    ∃ r t k, Filed v name r t k ∧ (k ∈ loaded ∨
      ∃ name' ∈ names, ∃ r' t', Filed v name' r' t' k ∧ ∀ x ∈ r' :: t', x ∈ rs) := by
  intro names
  induction names with
  | nil => intro loaded rs h x hx; simp at hx
  | cons n names ih =>
    intro loaded rs h name hname
    obtain ⟨r, t, k, hf, ⟨hk, h⟩ | ⟨hk, rest, h, e⟩⟩ := reactionLoop_cons h
    · rcases List.mem_cons.1 hname with rfl | hname
      · exact ⟨r, t, k, hf, Or.inl hk⟩
      · obtain ⟨r', t', k', f', o⟩ := ih h name hname
        refine ⟨r', t', k', f', o.imp_right ?_⟩
        rintro ⟨m, hm, y⟩
        exact ⟨m, List.mem_cons_of_mem _ hm, y⟩
    · have hin : ∀ x ∈ r :: t, x ∈ rs := fun x hx => by rw [e]; exact List.mem_append_left _ hx
      rcases List.mem_cons.1 hname with rfl | hname
      · exact ⟨r, t, k, hf, Or.inr ⟨name, List.mem_cons_self, r, t, hf, hin⟩⟩
      · obtain ⟨r', t', k', f', o⟩ := ih h name hname
        refine ⟨r', t', k', f', ?_⟩
        rcases o with o | ⟨m, hm, r2, t2, f2, y⟩
        · rcases List.mem_append.1 o with o | o
          · exact Or.inl o
          · simp only [List.mem_cons, List.not_mem_nil, or_false] at o
            rw [o]
            exact Or.inr ⟨n, List.mem_cons_self, r, t, hf, hin⟩
        · exact Or.inr ⟨m, List.mem_cons_of_mem _ hm, r2, t2, f2, fun x hx => by
            rw [e]; exact List.mem_append_right _ (y x hx)⟩

/-- No duplicates among the reactions with `P`, if each file has none and files
under different pairs share none. -/
theorem reactionLoop_nodup {v : Env} {α : Type} (key : Reaction → α) (P : Reaction → Bool) :
    ∀ {names : List (JVal ℝ)} {loaded : List (Int × Proc)} {rs : List Reaction},
    (∀ name ∈ names, ∀ r t k, Filed v name r t k → (((r :: t).filter P).map key).Nodup) →
    (∀ n ∈ names, ∀ m ∈ names, ∀ r t k r' t' k', Filed v n r t k → Filed v m r' t' k' → k ≠ k' →
      ∀ x ∈ r :: t, ∀ y ∈ r' :: t', P x = true → P y = true → key x ≠ key y) →
    reactionLoop v loaded names = .ok rs → ((rs.filter P).map key).Nodup := by
  intro names
  induction names with
  | nil => intro loaded rs _ _ h; simp only [reactionLoop, Except.ok.injEq] at h; simp [← h]
  | cons n names ih =>
    intro loaded rs H1 H2 h
    have H1' : ∀ name ∈ names, _ := fun name hn => H1 name (List.mem_cons_of_mem _ hn)
    have H2' : ∀ a ∈ names, ∀ b ∈ names, _ := fun a ha b hb =>
      H2 a (List.mem_cons_of_mem _ ha) b (List.mem_cons_of_mem _ hb)
    obtain ⟨r, t, k, hf, ⟨hk, h⟩ | ⟨hk, rest, h, e⟩⟩ := reactionLoop_cons h
    · exact ih H1' H2' h
    · rw [e, List.filter_append, List.map_append, List.nodup_append]
      refine ⟨H1 n List.mem_cons_self r t k hf, ih H1' H2' h, ?_⟩
      intro a ha b hb
      obtain ⟨x, hx, rfl⟩ := List.mem_map.1 ha
      obtain ⟨y, hy, rfl⟩ := List.mem_map.1 hb
      rw [List.mem_filter] at hx hy
      obtain ⟨m, hm, r', t', k', f', hy', hk'⟩ := reactionLoop_from h y hy.1
      refine H2 n List.mem_cons_self m (List.mem_cons_of_mem _ hm) r t k r' t' k' hf f' ?_ x hx.1 y
        hy' hx.2 hy.2
      rintro rfl
      exact hk' (List.mem_append_right _ (by simp))

end Marley.Job
