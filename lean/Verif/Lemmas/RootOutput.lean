import Verif.Model.RootOutput
import Verif.Lemmas.OutputRun

/-!
# Lemmas on the program with output files of several classes
-/

set_option autoImplicit false

namespace Marley.RootOut
open Marley Marley.Json Marley.Out

variable {K γ φ : Type}

/-- Several events written to a file. -/
def pushFiles (O : FileOps K γ φ) (f : φ) (es : List (Event K)) : φ :=
  es.foldl (fun f e => (O.writeEvent f e).1) f

theorem pushFiles_cons (O : FileOps K γ φ) (f : φ) (e : Event K) (es : List (Event K)) :
    pushFiles O f (e :: es) = pushFiles O (O.writeEvent f e).1 es := rfl

theorem writeFiles_ok {O : FileOps K γ φ} {e : Event K} {fs fs' : List φ}
    (h : writeFiles O e fs = (fs', .ok ())) : fs' = fs.map (fun f => (O.writeEvent f e).1) := by
  induction fs generalizing fs' with
  | nil => simp [writeFiles] at h; simp [h]
  | cons f t ih =>
    rw [writeFiles] at h
    rcases hw : O.writeEvent f e with ⟨f1, _ | ⟨⟩⟩
    · simp [hw] at h
    · rw [hw] at h
      rcases ht : writeFiles O e t with ⟨t1, r⟩
      rw [ht] at h
      simp only [Prod.mk.injEq] at h
      obtain ⟨rfl, rfl⟩ := h
      rw [ih ht]
      simp [hw]

theorem loopFiles_ok {O : FileOps K γ φ} {G : GenOps K γ} {stop : Nat → Bool}
    {num : Int} {n i : Nat} {count : Int} {fs fs' : List φ} {g g' : γ} {c : Int}
    (h : loopFiles O G stop num n i count fs g = some (fs', .ok (g', c))) :
    ∃ es, Generates G g es g' ∧ fs' = fs.map (fun f => pushFiles O f es) ∧
      c = count + es.length ∧ es.length ≤ n ∧ (∀ k, k < es.length → stop (i + k) = false) ∧
      (∀ k : Nat, k < es.length → count + k ≤ num) ∧
      (es.length = n ∨ num < c ∨ stop (i + es.length) = true) := by
  induction n generalizing i count fs g with
  | zero =>
    simp only [loopFiles, Option.some.injEq, Prod.mk.injEq, Except.ok.injEq] at h
    obtain ⟨rfl, rfl, rfl⟩ := h
    exact ⟨[], .nil _, by simp [pushFiles], by simp, by simp, by simp, by simp, .inl rfl⟩
  | succ n ih =>
    rw [loopFiles] at h
    by_cases hc : count ≤ num ∧ stop i = false
    · rw [if_pos hc] at h
      rcases he : G.event g with _ | _ | ⟨e, g1⟩
      · simp [he] at h
      · simp [he] at h
      · rw [he] at h
        simp only at h
        rcases hw : writeFiles O e fs with ⟨fs1, _ | ⟨⟩⟩
        · simp [hw] at h
        · rw [hw] at h
          simp only at h
          obtain ⟨es, h1, h2, h3, h4, h5, h6, h7⟩ := ih h
          refine ⟨e :: es, .cons _ _ _ _ _ he h1, ?_, ?_, ?_, ?_, ?_, ?_⟩
          · rw [h2, writeFiles_ok hw]
            simp [pushFiles_cons]
          · rw [h3]; simp; omega
          · simp; omega
          · intro k hk
            cases k with
            | zero => exact hc.2
            | succ k =>
              have := h5 k (by simpa using hk)
              rwa [show i + (k + 1) = i + 1 + k by omega]
          · intro k hk
            cases k with
            | zero => simpa using hc.1
            | succ k =>
              have := h6 k (by simpa using hk)
              push_cast
              omega
          · rcases h7 with h7 | h7 | h7
            · exact .inl (by simp [h7])
            · exact .inr (.inl h7)
            · refine .inr (.inr ?_)
              rwa [List.length_cons, show i + (es.length + 1) = i + 1 + es.length by omega]
    · rw [if_neg hc] at h
      simp only [Option.some.injEq, Prod.mk.injEq, Except.ok.injEq] at h
      obtain ⟨rfl, rfl, rfl⟩ := h
      refine ⟨[], .nil _, by simp [pushFiles], by simp, by simp, by simp, by simp, ?_⟩
      by_cases h1 : count ≤ num
      · exact .inr (.inr (by simpa [h1] using hc))
      · exact .inr (.inl (by simpa using h1))

theorem resumeFiles_some {O : FileOps K γ φ} {fs fs' : List φ} {r0 : γ × Int}
    {cur : Option (γ × Int)} (h : resumeFiles O fs (some r0) = (fs', .ok cur)) :
    fs' = fs ∧ cur = some r0 ∧ ∀ f ∈ fs, O.isResume f = false := by
  induction fs generalizing fs' with
  | nil => simp [resumeFiles] at h; obtain ⟨rfl, rfl⟩ := h; simp
  | cons f t ih =>
    rw [resumeFiles] at h
    by_cases hm : O.isResume f = true
    · simp [hm] at h
    · rw [if_neg hm] at h
      rcases ht : resumeFiles O t (some r0) with ⟨t1, r⟩
      rw [ht] at h
      simp only [Prod.mk.injEq] at h
      obtain ⟨rfl, rfl⟩ := h
      obtain ⟨rfl, h2, h3⟩ := ih ht
      exact ⟨rfl, h2, by simpa [hm] using h3⟩

theorem resumeFiles_none {O : FileOps K γ φ} {fs fs' : List φ}
    {cur : Option (γ × Int)} (h : resumeFiles O fs none = (fs', .ok cur)) :
    (cur = none ∧ fs' = fs ∧ ∀ f ∈ fs, O.isResume f = false) ∨
    ∃ r a f f' b, cur = some r ∧ fs = a ++ f :: b ∧ fs' = a ++ f' :: b ∧ O.isResume f = true ∧
      O.resume f = (f', .ok r) ∧ ∀ x ∈ a ++ b, O.isResume x = false := by
  induction fs generalizing fs' with
  | nil => simp [resumeFiles] at h; obtain ⟨rfl, rfl⟩ := h; simp
  | cons f t ih =>
    rw [resumeFiles] at h
    by_cases hm : O.isResume f = true
    · rw [if_pos hm, if_neg (by simp)] at h
      rcases hr : O.resume f with ⟨f1, _ | r⟩
      · simp [hr] at h
      · rw [hr] at h
        simp only at h
        rcases ht : resumeFiles O t (some r) with ⟨t1, q⟩
        rw [ht] at h
        simp only [Prod.mk.injEq] at h
        obtain ⟨rfl, rfl⟩ := h
        obtain ⟨rfl, h2, h3⟩ := resumeFiles_some ht
        exact .inr ⟨r, [], f, f1, t1, h2, rfl, rfl, hm, hr, by simpa using h3⟩
    · rw [if_neg hm] at h
      rcases ht : resumeFiles O t none with ⟨t1, r⟩
      rw [ht] at h
      simp only [Prod.mk.injEq] at h
      obtain ⟨rfl, rfl⟩ := h
      rcases ih ht with ⟨h1, rfl, h3⟩ | ⟨r, a, x, x', b, h1, rfl, rfl, h4, h5, h6⟩
      · exact .inl ⟨h1, rfl, by simpa [hm] using h3⟩
      · exact .inr ⟨r, f :: a, x, x', b, h1, rfl, rfl, h4, h5, by simpa [hm] using h6⟩

/-- A run that ends without an exception. -/
theorem produceFiles_ok {O : FileOps K γ φ} {G : GenOps K γ} {cfg : JVal K} {num : Int}
    {stop : Nat → Bool} {fs fs' : List φ} {n : Int}
    (h : produceFiles O G cfg num stop fs = some (fs', .ok n)) :
    ∃ fs1 cur g old es g', resumeFiles O fs none = (fs1, .ok cur) ∧
      startGen G cfg cur = .ok (g, old) ∧ Generates G g es g' ∧
      fs' = fs1.map (fun f => O.close (pushFiles O (O.writeFlux f (G.xsec g)) es) cfg g' n) ∧
      n = old + es.length ∧ (∀ k, k < es.length → stop k = false) ∧
      (es ≠ [] → n ≤ num) ∧ (num ≤ n ∨ stop es.length = true) := by
  rw [produceFiles] at h
  rcases hr : resumeFiles O fs none with ⟨fs1, _ | cur⟩
  · simp [hr] at h
  · rw [hr] at h
    simp only at h
    rcases hs : startGen G cfg cur with _ | ⟨g, old⟩
    · simp [hs] at h
    · rw [hs] at h
      simp only at h
      rcases he : loopFiles O G stop num (num - old).toNat 0 (1 + old)
          (fs1.map (fun f => O.writeFlux f (G.xsec g))) g with _ | ⟨fs2, _ | ⟨g', c⟩⟩
      · simp [he] at h
      · simp [he] at h
      · rw [he] at h
        simp only [Option.some.injEq, Prod.mk.injEq, Except.ok.injEq] at h
        obtain ⟨rfl, rfl⟩ := h
        obtain ⟨es, h1, h2, h3, h4, h5, h6, h7⟩ := loopFiles_ok he
        refine ⟨fs1, cur, g, old, es, g', rfl, hs, h1, ?_, by omega, ?_, ?_, ?_⟩
        · rw [h2, List.map_map, List.map_map]; rfl
        · intro k hk; simpa using h5 k hk
        · intro hne
          have : 0 < es.length := List.length_pos_iff.2 hne
          have := h6 (es.length - 1) (by omega)
          omega
        · rcases h7 with h7 | h7 | h7
          · left; omega
          · left; omega
          · right; simpa using h7

/-- An exception in the event loop comes from the generator, if writing to files with the
property `P` never fails. -/
theorem loopFiles_error {O : FileOps K γ φ} {G : GenOps K γ} {stop : Nat → Bool} {P : φ → Prop}
    (hO : ∀ f e, P f → (O.writeEvent f e).2 = .ok () ∧ P (O.writeEvent f e).1)
    {num : Int} {n i : Nat} {count : Int} {fs fs' : List φ} {g : γ} {x : Exc}
    (hP : ∀ f ∈ fs, P f)
    (h : loopFiles O G stop num n i count fs g = some (fs', .error x)) :
    ∃ es g', Generates G g es g' ∧ G.event g' = some (.error x) ∧
      fs' = fs.map (fun f => pushFiles O f es) := by
  have hw : ∀ e fs, (∀ f ∈ fs, P f) →
      writeFiles O e fs = (fs.map (fun f => (O.writeEvent f e).1), .ok ()) := by
    intro e fs
    induction fs with
    | nil => intro _; rfl
    | cons f t ih =>
      intro hP
      have hf : O.writeEvent f e = ((O.writeEvent f e).1, .ok ()) := by
        rw [← (hO f e (hP f (by simp))).1]
      rw [writeFiles, hf]
      simp only [List.map_cons]
      rw [ih (fun f hf => hP f (by simp [hf]))]
  induction n generalizing i count fs g with
  | zero => simp [loopFiles] at h
  | succ n ih =>
    rw [loopFiles] at h
    by_cases hc : count ≤ num ∧ stop i = false
    · rw [if_pos hc] at h
      rcases he : G.event g with _ | _ | ⟨e, g1⟩
      · simp [he] at h
      · rw [he] at h
        simp only [Option.some.injEq, Prod.mk.injEq, Except.error.injEq] at h
        obtain ⟨rfl, rfl⟩ := h
        exact ⟨[], g, .nil _, he, by simp [pushFiles]⟩
      · rw [he] at h
        simp only at h
        rw [hw _ _ hP] at h
        simp only at h
        have hP' : ∀ f ∈ fs.map (fun f => (O.writeEvent f e).1), P f := by
          simp only [List.mem_map, forall_exists_index, and_imp, forall_apply_eq_imp_iff₂]
          exact fun f hf => (hO f e (hP f hf)).2
        obtain ⟨es, g', h1, h2, h3⟩ := ih hP' h
        refine ⟨e :: es, g', .cons _ _ _ _ _ he h1, h2, ?_⟩
        rw [h3]
        simp [pushFiles_cons]
    · rw [if_neg hc] at h
      simp at h

/-! ## Text files only: nothing changes -/

section Text
variable [DivisionRing K] (G : GenOps K γ) (F : TextFmt K) (R : RootIO K)

theorem resumeFiles_text (fs : List (OutFile K)) (cur : Option (γ × Int)) :
    resumeFiles (anyOps G F R) (fs.map .text) cur =
      ((resumeAll G F fs cur).1.map .text, (resumeAll G F fs cur).2) := by
  induction fs generalizing cur with
  | nil => rfl
  | cons f t ih =>
    rw [List.map_cons, resumeFiles, resumeAll]
    by_cases hm : f.mode = .resume
    · rw [if_pos (by simp [anyOps, hm]), if_pos hm]
      by_cases hs : cur.isSome = true
      · rw [if_pos hs, if_pos hs]; rfl
      · rw [if_neg hs, if_neg hs]
        rcases hr : resume G F f with ⟨f1, e | r⟩
        · simp only [anyOps, hr]; rfl
        · simp only [anyOps, hr]
          rw [← anyOps, ih]
          rfl
    · rw [if_neg (by simp [anyOps, hm]), if_neg hm]
      simp only [ih]
      rfl

theorem writeFiles_text (e : Event K) (fs : List (OutFile K)) :
    writeFiles (anyOps G F R) e (fs.map .text) =
      ((writeAll F e fs).1.map .text, (writeAll F e fs).2) := by
  induction fs with
  | nil => rfl
  | cons f t ih =>
    rw [List.map_cons, writeFiles, writeAll]
    rcases hr : writeEvent F f e with ⟨f1, x | ⟨⟩⟩
    · simp only [anyOps, hr]; rfl
    · simp only [anyOps, hr]
      rw [← anyOps, ih]
      rfl

theorem loopFiles_text (stop : Nat → Bool) (num : Int) (n i : Nat) (count : Int)
    (fs : List (OutFile K)) (g : γ) :
    loopFiles (anyOps G F R) G stop num n i count (fs.map .text) g =
      (eventLoop G F stop num n i count fs g).map (fun p => (p.1.map .text, p.2)) := by
  induction n generalizing i count fs g with
  | zero => rfl
  | succ n ih =>
    rw [loopFiles, eventLoop]
    split
    · rcases G.event g with _ | _ | ⟨ev, g1⟩
      · rfl
      · rfl
      · simp only [writeFiles_text]
        rcases writeAll F ev fs with ⟨fs1, x | ⟨⟩⟩
        · rfl
        · exact ih _ _ _ _
    · rfl

end Text

end Marley.RootOut
