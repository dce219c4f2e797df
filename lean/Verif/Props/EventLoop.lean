import Verif.Props.OutputRun

/-!
# C64: the event loop of the program

`produce` is the program from the moment all output files are open to its end; `stop i`
says whether the user has interrupted it when the loop condition is tested for the
`i`-th time.
-/

set_option autoImplicit false

namespace Marley.Props
open Marley Marley.Json Marley.Out

variable {K γ : Type}

/-! ## Helpers -/

theorem close_other {G : GenOps K γ} {F : TextFmt K} {f : OutFile K} (h : f.format ≠ .json)
    (cfg : JVal K) (g : γ) (n : Int) : closeFile G F f cfg g n = f := by
  simp [closeFile, h]

theorem generates_texts {G : GenOps K γ} {ops : FloatOps K}
    (hG : ∀ g e g', G.event g = some (.ok (e, g')) → EventText ops e) {g g' : γ}
    {es : List (Event K)} (h : Generates G g es g') : ∀ e ∈ es, EventText ops e := by
  induction h with
  | nil => simp
  | cons g g1 g' e es he _ ih =>
    intro x hx
    rcases List.mem_cons.1 hx with rfl | hx
    · exact hG _ _ _ he
    · exact ih x hx

/-- A file that is not resumed. -/
theorem records_new [DivisionRing K] {G : GenOps K γ} {F : TextFmt K} (ofLong : Int → K)
    {f : OutFile K} (ho : Opened f) (hm : f.mode ≠ .resume) (x : K) {es : List (Event K)}
    (he : ∀ e ∈ es, EventText F.json e) {cfg : JVal K} (hc : Holdable (FloatOk F.json) cfg) {g' : γ}
    (hx : FloatOk F.json (G.xsec g')) {n : Int} (hn : longMin ≤ n ∧ n ≤ longMax) :
    Records F ofLong x (G.xsec g') es n f (closeFile G F (pushEvents F (writeFlux F f x) es) cfg g' n) := by
  obtain ⟨r, d, ho, hw⟩ := ho
  have hgood : f.good = true := by
    rcases opened_facts ho hw with ⟨h, -⟩ | ⟨-, h, -⟩ <;> exact h
  refine ⟨fun hf => ?_, fun hf => ?_, fun hf hmo => ?_, fun _ hr => absurd hr hm⟩
  · by_cases ht : f.text = []
    · have e1 : writeFlux F f x = { f with text := F.dbl.print x ++ ['\n'], xsec := x } := by
        simp [writeFlux, hf, hgood, ht, OutFile.put]
      rw [e1, push_ascii (by exact hf) (by exact hgood), close_other (by simp [hf])]
      simp [ht]
    · have e1 : writeFlux F f x = f := by simp [writeFlux, hf, ht]
      rw [e1, push_ascii hf hgood, close_other (by simp [hf])]
      simp [ht]
  · have e1 : writeFlux F f x = { f with xsec := x } := by simp [writeFlux, hf]
    rw [e1, push_hepevt (by exact hf) (by exact hgood), close_other (by simp [hf])]
  · have h1 := (opened_holds (ops := F.json) ho hw hf hmo).1
    have h2 := holds_push (holds_flux h1 x).1 es
    rw [List.nil_append] at h2
    exact ⟨holds_contains ofLong h2 he hc hx hn, holds_fluxIs h2 he hc hx hn⟩

/-- The file that is resumed. -/
theorem records_old [DivisionRing K] {G : GenOps K γ} {F : TextFmt K} (ofLong : Int → K)
    {f f1 : OutFile K} (ho : Opened f) {r : γ × Int} (hr : resume G F f = (f1, .ok r)) (x : K)
    {es : List (Event K)} (he : ∀ e ∈ es, EventText F.json e) {cfg : JVal K}
    (hc : Holdable (FloatOk F.json) cfg) {g' : γ} (hx : FloatOk F.json (G.xsec g')) {n : Int}
    (hn : longMin ≤ n ∧ n ≤ longMax) :
    Records F ofLong x (G.xsec g') es n f (closeFile G F (pushEvents F (writeFlux F f1 x) es) cfg g' n) := by
  obtain ⟨q, d, ho, hw⟩ := ho
  have hgood : f.good = true := by
    rcases opened_facts ho hw with ⟨h, -⟩ | ⟨-, h, -⟩ <;> exact h
  obtain ⟨hm, hf, -⟩ := resume_ok hr
  refine ⟨fun h => ?_, fun h => ?_, fun _ h => ?_, fun _ _ olds old ho holds => ?_⟩
  · rw [hf] at h; cases h
  · rw [hf] at h; cases h
  · rw [hm] at h; cases h
  · obtain ⟨h1, -, -⟩ := contains_resume hgood hr ho
    have h3 := holds_push (holds_flux h1 x).1 es
    rw [← List.map_append] at h3
    have hall : ∀ e ∈ olds ++ es, EventText F.json e := by
      intro e hmem
      rcases List.mem_append.1 hmem with h | h
      · exact holds e h
      · exact he e h
    exact ⟨holds_contains ofLong h3 hall hc hx hn, holds_fluxIs h3 hall hc hx hn⟩

/-! ## C64 -/

/-- **C64**, a run that ends without an exception, interrupted or not: there are events
`es`, generated one after the other, such that every output file records exactly them, in
order (after what was in the file if it is appended to or resumed); the number `n` that
is saved is the restored one plus their number; no event is generated when the number
asked for is reached or after the interruption was noticed, and the run ends for one of
these two reasons only.  Missing from the full claim: output files that cannot be
written, doubles that do not survive JSON text, and runs with an exception (see
`C64_exception_partial`); the saved number is that of the resumed file plus the new
events, whatever the resumed file contained (see `C64_beside_violated`). -/
theorem C64_run_partial [DivisionRing K] (G : GenOps K γ) (F : TextFmt K) (ofLong : Int → K)
    (hG : ∀ g e g', G.event g = some (.ok (e, g')) → EventText F.json e)
    (hx : ∀ g, FloatOk F.json (G.xsec g)) (cfg : JVal K) (hc : Holdable (FloatOk F.json) cfg)
    (num : Int) (hnum : num ≤ longMax) (stop : Nat → Bool) (fs fs' : List (OutFile K))
    (ho : ∀ f ∈ fs, Opened f) (n : Int) (h : produce G F cfg num stop fs = some (fs', .ok n)) :
    ∃ g old es g', Generates G g es g' ∧
      List.Forall₂ (Records F ofLong (G.xsec g) (G.xsec g') es n) fs fs' ∧ n = old + es.length ∧
      (es ≠ [] → n ≤ num) ∧ (∀ k, k < es.length → stop k = false) ∧
      (num ≤ n ∨ stop es.length = true) ∧
      (((∀ f ∈ fs, f.mode ≠ .resume) ∧ G.create cfg = .ok g ∧ old = 0) ∨
        ∃ a f b f1, fs = a ++ f :: b ∧ f.mode = .resume ∧ (∀ x ∈ a ++ b, x.mode ≠ .resume) ∧
          resume G F f = (f1, .ok (g, old))) := by
  obtain ⟨fs1, cur, g, old, es, g', h1, h2, h3, h4, h5, h6, h7, h8⟩ := produce_ok h
  have hes := generates_texts hG h3
  have hrange : ∀ old : Int, longMin ≤ old ∧ old ≤ longMax → n = old + es.length →
      longMin ≤ n ∧ n ≤ longMax := by
    intro old ho hn
    refine ⟨by omega, ?_⟩
    by_cases he : es = []
    · simp [he] at hn; omega
    · have := h7 he; omega
  rcases resumeAll_none h1 with ⟨rfl, rfl, h9⟩ | ⟨r, a, f, f1, b, rfl, rfl, rfl, a4, a5, a6⟩
  · have hs : G.create cfg = .ok g ∧ old = 0 := by
      simp only [startGen] at h2
      rcases hcr : G.create cfg with e | g0
      · simp [hcr] at h2
      · simp only [hcr, Except.ok.injEq, Prod.mk.injEq] at h2
        exact ⟨by rw [h2.1], h2.2.symm⟩
    have hn := hrange old (by rw [hs.2]; decide) h5
    refine ⟨g, old, es, g', h3, ?_, h5, h7, h6, h8, .inl ⟨h9, hs⟩⟩
    rw [h4, List.forall₂_map_right_iff, List.forall₂_same]
    exact fun f hf => records_new ofLong (ho f hf) (h9 f hf) _ hes hc (hx _) hn
  · simp only [startGen, Except.ok.injEq] at h2
    subst h2
    obtain ⟨-, -, m, rest, b3, b4, -⟩ := resume_ok a5
    have hn := hrange old (restore_range b3 b4) h5
    refine ⟨g, old, es, g', h3, ?_, h5, h7, h6, h8, .inr ⟨a, f, b, f1, rfl, a4, a6, a5⟩⟩
    rw [h4, List.map_append, List.map_cons]
    have hab : ∀ x ∈ a ++ b, Records F ofLong (G.xsec g) (G.xsec g') es n x
        (closeFile G F (pushEvents F (writeFlux F x (G.xsec g)) es) cfg g' n) := by
      intro x hxm
      refine records_new ofLong (ho x ?_) (a6 x hxm) _ hes hc (hx _) hn
      rcases List.mem_append.1 hxm with h | h <;> simp [h]
    apply List.rel_append
    · rw [List.forall₂_map_right_iff, List.forall₂_same]
      exact fun x hx => hab x (by simp [hx])
    · refine .cons (records_old ofLong (ho f (by simp)) a5 _ hes hc (hx _) hn) ?_
      rw [List.forall₂_map_right_iff, List.forall₂_same]
      exact fun x hx => hab x (by simp [hx])

/-- **C64**, the saved number: if no file is resumed, it is the number of events in every
JSON file; if a JSON file is resumed that recorded the number of events it contains, the
same holds for it afterwards, and the new events continue the old ones.  Missing as in
`C64_run_partial`. -/
theorem C64_count_partial [DivisionRing K] (G : GenOps K γ) (F : TextFmt K) (ofLong : Int → K)
    (hG : ∀ g e g', G.event g = some (.ok (e, g')) → EventText F.json e)
    (hx : ∀ g, FloatOk F.json (G.xsec g)) (cfg : JVal K) (hc : Holdable (FloatOk F.json) cfg)
    (num : Int) (hnum : num ≤ longMax) (stop : Nat → Bool) (fs fs' : List (OutFile K))
    (ho : ∀ f ∈ fs, Opened f) (n : Int) (h : produce G F cfg num stop fs = some (fs', .ok n))
    (f f' : OutFile K) (hf : (f, f') ∈ fs.zip fs') (hj : f.format = .json) :
    ((∀ f ∈ fs, f.mode ≠ .resume) → ∃ es, (∀ e ∈ es, EventText F.json e) ∧ n = es.length ∧
      Contains F.json ofLong f'.text es n) ∧
    (f.mode = .resume → ∀ olds, Contains F.json ofLong f.text olds olds.length →
      (∀ e ∈ olds, EventText F.json e) → ∃ es, (∀ e ∈ es, EventText F.json e) ∧
        n = (olds ++ es).length ∧ Contains F.json ofLong f'.text (olds ++ es) n) := by
  obtain ⟨g, old, es, g', h1, h2, h3, h4, h5, h6, h7⟩ :=
    C64_run_partial G F ofLong hG hx cfg hc num hnum stop fs fs' ho n h
  have hes := generates_texts hG h1
  have hrec : Records F ofLong (G.xsec g) (G.xsec g') es n f f' :=
    (List.forall₂_iff_zip.1 h2).2 hf
  have hmem : f ∈ fs := (List.of_mem_zip hf).1
  have hmode : f.mode = .overwrite ∨ f.mode = .resume := by
    obtain ⟨r, d, h1, h2⟩ := ho f hmem
    rcases opened_facts h1 h2 with ⟨-, -, -, -, h, -⟩ | ⟨h, -⟩
    · exact h hj
    · exact absurd hj h
  constructor
  · intro hall
    rcases h7 with ⟨-, -, rfl⟩ | ⟨a, x, b, x1, rfl, hm, -⟩
    · refine ⟨es, hes, by omega, (hrec.fresh hj ?_).1⟩
      rcases hmode with h | h
      · exact h
      · exact absurd h (hall f hmem)
    · exact absurd hm (hall x (by simp))
  · intro hm olds hcont holds
    refine ⟨es, hes, ?_, (hrec.resumed hj hm olds _ hcont holds).1⟩
    rcases h7 with ⟨hall, -⟩ | ⟨a, x, b, x1, rfl, hxm, hall, hres⟩
    · exact absurd hm (hall f hmem)
    · have hfx : f = x := by
        rcases List.mem_append.1 hmem with h | h
        · exact absurd hm (hall f (by simp [h]))
        · rcases List.mem_cons.1 h with h | h
          · exact h
          · exact absurd hm (hall f (by simp [h]))
      subst hfx
      obtain ⟨r, d, h1, h2⟩ := ho f hmem
      have hgood : f.good = true := by
        rcases opened_facts h1 h2 with ⟨h, -⟩ | ⟨-, h, -⟩ <;> exact h
      obtain ⟨-, h8, -⟩ := contains_resume hgood hres hcont
      rw [h3, h8, List.length_append]
      push_cast
      rfl

/-- The texts a JSON output file can have after a run in which it was new (and no other
file was resumed) and any number of further runs in which it was resumed, each with its
own configuration, number of events, interruption and other output files. -/
inductive Sessions [DivisionRing K] (G : GenOps K γ) (F : TextFmt K) : Str → Prop
  | first (cfg : JVal K) (num : Int) (stop : Nat → Bool) (fs fs' : List (OutFile K)) (n : Int)
      (f f' : OutFile K) : Holdable (FloatOk F.json) cfg → num ≤ longMax → (∀ f ∈ fs, Opened f) →
      produce G F cfg num stop fs = some (fs', .ok n) → (∀ f ∈ fs, f.mode ≠ .resume) →
      (f, f') ∈ fs.zip fs' → f.format = .json → Sessions G F f'.text
  | next (cfg : JVal K) (num : Int) (stop : Nat → Bool) (fs fs' : List (OutFile K)) (n : Int)
      (f f' : OutFile K) : Holdable (FloatOk F.json) cfg → num ≤ longMax → (∀ f ∈ fs, Opened f) →
      produce G F cfg num stop fs = some (fs', .ok n) → f.mode = .resume →
      (f, f') ∈ fs.zip fs' → f.format = .json → Sessions G F f.text → Sessions G F f'.text

/-- **C64**, over any number of interrupted and resumed runs: the number saved in a JSON
file is always the number of events in it.  Missing as in `C64_run_partial`. -/
theorem C64_sessions_partial [DivisionRing K] (G : GenOps K γ) (F : TextFmt K) (ofLong : Int → K)
    (hG : ∀ g e g', G.event g = some (.ok (e, g')) → EventText F.json e)
    (hx : ∀ g, FloatOk F.json (G.xsec g)) (text : Str) (h : Sessions G F text) :
    ∃ es, (∀ e ∈ es, EventText F.json e) ∧ Contains F.json ofLong text es es.length := by
  induction h with
  | first cfg num stop fs fs' n f f' h1 h2 h3 h4 h5 h6 h7 =>
    obtain ⟨es, he, hn, hcont⟩ := (C64_count_partial G F ofLong hG hx cfg h1 num h2 stop fs fs' h3 n
      h4 f f' h6 h7).1 h5
    exact ⟨es, he, hn ▸ hcont⟩
  | next cfg num stop fs fs' n f f' h1 h2 h3 h4 h5 h6 h7 _ ih =>
    obtain ⟨olds, ho, hcont⟩ := ih
    obtain ⟨es, he, hn, hcont⟩ := (C64_count_partial G F ofLong hG hx cfg h1 num h2 stop fs fs' h3 n
      h4 f f' h6 h7).2 h5 olds hcont ho
    refine ⟨olds ++ es, ?_, hn ▸ hcont⟩
    intro e hmem
    rcases List.mem_append.1 hmem with h | h
    · exact ho e h
    · exact he e h

/-! ## The whole job -/

theorem openAll_ok [Zero K] {l : List (Res Request × Disk)} {fs : List (OutFile K)}
    (h : openAll l = (fs, .ok ())) :
    List.Forall₂ (fun x f => ∃ r, x.1 = .ok r ∧ (openFile r x.2).2 = .ok f) l fs := by
  induction l generalizing fs with
  | nil =>
    simp only [openAll, Prod.mk.injEq] at h
    rw [← h.1]
    exact .nil
  | cons x t ih =>
    obtain ⟨r, d⟩ := x
    cases r with
    | error e => simp [openAll] at h
    | ok r =>
      rw [openAll] at h
      rcases hf : (openFile (K := K) r d).2 with e | f
      · simp [hf] at h
      · simp only [hf, Prod.mk.injEq] at h
        obtain ⟨rfl, h2⟩ := h
        exact .cons ⟨r, rfl, hf⟩ (ih (Prod.ext rfl h2))

/-- **C64**, from the job configuration: a job that ends without an exception opened one
file for each element of `output`, and `C64_run_partial` applies to these files. -/
theorem C64_job_partial [DivisionRing K] (G : GenOps K γ) (F : TextFmt K) (ofLong : Int → K)
    (hG : ∀ g e g', G.event g = some (.ok (e, g')) → EventText F.json e)
    (hx : ∀ g, FloatOk F.json (G.xsec g)) (cfg settings : JVal K)
    (hc : Holdable (FloatOk F.json) cfg) (stop : Nat → Bool) (disks : List Disk) (hd : ∀ d ∈ disks, d.writable = true)
    (fs' : List (OutFile K)) (n : Int) (h : run G F cfg settings stop disks = some (fs', .ok n)) :
    ∃ num rs fs g old es g', getLongD settings "events".toList 1000 = .ok num ∧
      requestsOf settings = .ok rs ∧
      List.Forall₂ (fun x f => ∃ r, x.1 = .ok r ∧ (openFile r x.2).2 = .ok f) (rs.zip disks) fs ∧
      Generates G g es g' ∧ List.Forall₂ (Records F ofLong (G.xsec g) (G.xsec g') es n) fs fs' ∧
      n = old + es.length ∧ (es ≠ [] → n ≤ num) ∧ (num ≤ n ∨ stop es.length = true) := by
  rw [run] at h
  rcases h1 : getLongD settings "events".toList 1000 with e | num
  · rw [h1] at h; simp at h
  rw [h1] at h
  simp only at h
  by_cases hi : intervalOk settings = false
  · rw [if_pos hi] at h; simp at h
  rw [if_neg hi] at h
  rcases h2 : requestsOf settings with e | rs
  · simp [h2] at h
  rw [h2] at h
  simp only at h
  rcases h3 : openAll (K := K) (rs.zip disks) with ⟨fs, e | ⟨⟩⟩
  · simp [h3] at h
  rw [h3] at h
  simp only at h
  have hall := openAll_ok h3
  have ho : ∀ f ∈ fs, Opened f := by
    intro f hf
    obtain ⟨i, hi, rfl⟩ := List.getElem_of_mem hf
    have hlen := hall.length_eq
    have := hall.get (i := i) (by omega) hi
    obtain ⟨r, hr, hop⟩ := this
    refine ⟨r, _, hop, hd _ ?_⟩
    have : ((rs.zip disks).get ⟨i, by omega⟩) ∈ rs.zip disks := List.get_mem _ _
    exact (List.of_mem_zip (a := ((rs.zip disks).get ⟨i, by omega⟩).1) (by simpa using this)).2
  have hnum : num ≤ longMax := by
    have h1' := h1
    unfold getLongD getWithDefault at h1'
    cases settings with
    | obj m =>
      simp only [mapFind_eq_lookup] at h1'
      rcases hl : m.lookup "events".toList with _ | v
      · simp only [hl, Except.ok.injEq] at h1'
        rw [← h1']; decide
      · simp only [hl] at h1'
        cases v with
        | int k =>
          simp only [toLongOrThrow] at h1'
          split_ifs at h1' with hk
          · simp only [Except.ok.injEq] at h1'
            omega
        | _ => simp [toLongOrThrow] at h1'
    | _ => simp at h1'
  obtain ⟨g, old, es, g', a1, a2, a3, a4, a5, a6, a7⟩ :=
    C64_run_partial G F ofLong hG hx cfg hc num hnum stop fs fs' ho n h
  exact ⟨num, rs, fs, g, old, es, g', rfl, rfl, hall, a1, a2, a3, a4, a6⟩

/-! ## Exceptions -/

/-- **C64**, a run in which the generator throws: the files in the formats that are lists of
events hold exactly the events generated before.  Missing from the full claim: a JSON file
is left without its end and cannot be loaded any more, so that its events are lost for the
program. -/
theorem C64_exception_partial [DivisionRing K] (G : GenOps K γ) (F : TextFmt K)
    (hG : ∀ g e g', G.event g = some (.ok (e, g')) → EventText F.json e)
    (cfg : JVal K) (num : Int) (stop : Nat → Bool) (fs fs' : List (OutFile K))
    (ho : ∀ f ∈ fs, Opened f) (hroot : ∀ f ∈ fs, f.format ≠ .root)
    (hm : ∀ f ∈ fs, f.mode ≠ .resume) (g : γ) (hg : G.create cfg = .ok g) (x : Exc)
    (h : produce G F cfg num stop fs = some (fs', .error x)) :
    ∃ es g', Generates G g es g' ∧ G.event g' = some (.error x) ∧
      List.Forall₂ (fun f f' =>
        (f.format = .ascii → f'.text = f.text ++
          (if f.text = [] then F.dbl.print (G.xsec g) ++ ['\n'] else []) ++
          es.flatMap (Event.print F.dbl)) ∧
        (f.format = .hepevt → f'.text = f.text ++
          es.flatMap (Event.writeHepevt F.dbl 0 (G.xsec g))) ∧
        (f.format = .json → loadStream F.json f'.text = .exc .marleyError)) fs fs' := by
  have hnone : resumeAll G F fs none = (fs, .ok none) := by
    clear h ho hroot
    induction fs with
    | nil => rfl
    | cons f t ih =>
      rw [resumeAll, if_neg (hm f (by simp)), ih (fun f hf => hm f (by simp [hf]))]
  rw [produce, hnone] at h
  simp only [startGen, hg] at h
  rcases he : eventLoop G F stop num (num - 0).toNat 0 (1 + 0)
      (fs.map (fun f => writeFlux F f (G.xsec g))) g with _ | ⟨fs2, e | ⟨g', c⟩⟩
  · rw [he] at h; simp at h
  · rw [he] at h
    simp only [Option.some.injEq, Prod.mk.injEq, Except.error.injEq] at h
    obtain ⟨rfl, rfl⟩ := h
    have hfl : ∀ f : OutFile K, (writeFlux F f (G.xsec g)).format = f.format := by
      intro f
      simp only [writeFlux, OutFile.put]
      split_ifs <;> rfl
    obtain ⟨es, g', h1, h2, h3⟩ := eventLoop_error (by
      simp only [List.mem_map, forall_exists_index, and_imp, forall_apply_eq_imp_iff₂]
      intro f hf
      rw [hfl]
      exact hroot f hf) he
    refine ⟨es, g', h1, h2, ?_⟩
    rw [h3, List.map_map, List.forall₂_map_right_iff, List.forall₂_same]
    intro f hf
    have hes := generates_texts hG h1
    obtain ⟨r, d, hop, hw⟩ := ho f hf
    have hgood : f.good = true := by
      rcases opened_facts hop hw with ⟨h, -⟩ | ⟨-, h, -⟩ <;> exact h
    refine ⟨fun hf => ?_, fun hf => ?_, fun hf' => ?_⟩
    · by_cases ht : f.text = []
      · have e1 : writeFlux F f (G.xsec g) =
            { f with text := F.dbl.print (G.xsec g) ++ ['\n'], xsec := G.xsec g } := by
          simp [writeFlux, hf, hgood, ht, OutFile.put]
        simp only [Function.comp_apply]
        rw [e1, push_ascii (by exact hf) (by exact hgood)]
        simp [ht]
      · have e1 : writeFlux F f (G.xsec g) = f := by simp [writeFlux, hf, ht]
        simp only [Function.comp_apply]
        rw [e1, push_ascii hf hgood]
        simp [ht]
    · have e1 : writeFlux F f (G.xsec g) = { f with xsec := G.xsec g } := by simp [writeFlux, hf]
      simp only [Function.comp_apply]
      rw [e1, push_hepevt (by exact hf) (by exact hgood)]
    · have hmo : f.mode = .overwrite := by
        rcases opened_facts hop hw with ⟨-, -, -, -, h, -⟩ | ⟨h, -⟩
        · rcases h hf' with h | h
          · exact h
          · exact absurd h (hm f hf)
        · exact absurd hf' h
      have h1 := (opened_holds (ops := F.json) hop hw hf' hmo).1
      have h2 := holds_push (holds_flux h1 (G.xsec g)).1 es
      rw [List.nil_append] at h2
      refine holds_open h2 ?_ ?_
      · simp only [List.mem_map, forall_exists_index, and_imp, forall_apply_eq_imp_iff₂]
        exact fun e h => (event_wf (hes e h)).1
      · simp only [List.mem_map, forall_exists_index, and_imp, forall_apply_eq_imp_iff₂]
        exact fun e _ => ⟨_, toJson_eq e⟩
  · rw [he] at h; simp at h

/-- A generator that throws at once. -/
def failing : GenOps ℚ Nat := { counter with event := fun _ => some (.error .marleyError) }

example : produce failing exText (.obj []) 5 (fun _ => false) [exFresh none] =
    some ([writeFlux exText (exFresh none) (3 / 2)], .error .marleyError) := by rfl

/-! ## Concrete runs -/

theorem eventLoop_total [DivisionRing K] {G : GenOps K γ} {F : TextFmt K} (stop : Nat → Bool)
    (num : Int) (hG : ∀ g, ∃ e g', G.event g = some (.ok (e, g'))) (n i : Nat) (count : Int)
    {fs : List (OutFile K)} (hfs : ∀ f ∈ fs, f.format ≠ .root) (g : γ) :
    ∃ fs' g' c, eventLoop G F stop num n i count fs g = some (fs', .ok (g', c)) := by
  induction n generalizing i count fs g with
  | zero => exact ⟨_, _, _, rfl⟩
  | succ n ih =>
    rw [eventLoop]
    by_cases hc : count ≤ num ∧ stop i = false
    · rw [if_pos hc]
      obtain ⟨e, g1, he⟩ := hG g
      rw [he]
      simp only
      rw [writeAll_total e hfs]
      simp only
      apply ih
      simp only [List.mem_map, forall_exists_index, and_imp, forall_apply_eq_imp_iff₂]
      intro f hf
      rw [writeEvent_format]
      exact hfs f hf
    · rw [if_neg hc]
      exact ⟨_, _, _, rfl⟩

theorem produce_total [DivisionRing K] {G : GenOps K γ} {F : TextFmt K} {cfg : JVal K} (num : Int)
    (stop : Nat → Bool) {fs fs1 : List (OutFile K)} {cur : Option (γ × Int)}
    (h1 : resumeAll G F fs none = (fs1, .ok cur)) {r : γ × Int} (h2 : startGen G cfg cur = .ok r)
    (hG : ∀ g, ∃ e g', G.event g = some (.ok (e, g'))) (hfs : ∀ f ∈ fs1, f.format ≠ .root) :
    ∃ fs' n, produce G F cfg num stop fs = some (fs', .ok n) := by
  obtain ⟨g, old⟩ := r
  have hfl : ∀ f : OutFile K, (writeFlux F f (G.xsec g)).format = f.format := by
    intro f
    simp only [writeFlux, OutFile.put]
    split_ifs <;> rfl
  obtain ⟨fs2, g', c, h3⟩ := eventLoop_total (F := F) stop num hG (num - old).toNat 0 (1 + old)
    (fs := fs1.map (fun f => writeFlux F f (G.xsec g))) (by
      simp only [List.mem_map, forall_exists_index, and_imp, forall_apply_eq_imp_iff₂]
      intro f hf
      rw [hfl]
      exact hfs f hf) g
  rw [produce, h1]
  simp only [h2, h3]
  exact ⟨_, _, rfl⟩

theorem counter_total (g : Nat) : ∃ e g', counter.event g = some (.ok (e, g')) := ⟨_, _, rfl⟩

/-- The first event of the counter. -/
def firstEvent : Event ℚ := { sampleEvent with twoJ := 2 * ((0 : Nat) % 2) }

theorem firstEvent_ok : EventText codedFloats firstEvent := counter_event 0

theorem firstEvent_json : ∀ v ∈ [Event.toJson firstEvent], Holdable (FloatOk codedFloats) v := by
  simp only [List.mem_singleton, forall_eq]
  exact (event_wf firstEvent_ok).1

theorem exFresh_mode (indent : Option Nat) : (exFresh indent).mode = .overwrite := rfl

theorem exFresh_format (indent : Option Nat) : (exFresh indent).format = .json := rfl

theorem exSaved_mode (l : List (JVal ℚ)) (n : Int) : (exSaved l n).mode = .resume := rfl

theorem exSaved_opened (l : List (JVal ℚ)) (n : Int) : Opened (exSaved l n) :=
  ⟨jsonRequest "resume" none, ⟨some (exSaved l n).text, true, []⟩, rfl, rfl⟩

theorem exSaved_contains (n : Int) (hn : longMin ≤ n ∧ n ≤ longMax) :
    Contains codedFloats (fun n => (n : ℚ)) (exSaved [Event.toJson firstEvent] n).text [firstEvent] n :=
  holds_contains (G := counter) (F := exText) (es := [firstEvent]) _ (exSaved_holds _)
    (by simp only [List.mem_singleton, forall_eq]; exact firstEvent_ok) empty_config
    (codedFloats_ok _) hn

/-- A job that continues a file with one event, beside a second JSON file that is new. -/
theorem beside_run (num : Int) (stop : Nat → Bool) : ∃ fs' n,
    produce counter exText (.obj []) num stop [exSaved [Event.toJson firstEvent] 1, exFresh none] =
      some (fs', .ok n) := by
  obtain ⟨f1, h1, h2⟩ := exSaved_resume [Event.toJson firstEvent] firstEvent_json 1 (by decide)
  have hr : resumeAll counter exText [exSaved [Event.toJson firstEvent] 1, exFresh none] none =
      ([f1, exFresh none], .ok (some ((1 : Nat), 1))) := by
    rw [resumeAll, if_pos (exSaved_mode _ _), if_neg (by simp), h1]
    simp only
    rw [resumeAll, if_neg (by rw [exFresh_mode]; decide), resumeAll]
  refine produce_total num stop hr rfl counter_total ?_
  intro f hf
  simp only [List.mem_cons, List.not_mem_nil, or_false] at hf
  rcases hf with rfl | rfl
  · rw [h2.format]; decide
  · rw [exFresh_format]; decide

/-- The hypotheses of `C64_run_partial` and `C64_count_partial` are met by a job that
continues a file with one event and asks for three, with or without an interruption. -/
example (stop : Nat → Bool) : ∃ fs' n,
    produce counter exText (.obj []) 3 stop [exSaved [Event.toJson firstEvent] 1, exFresh none] =
      some (fs', .ok n) ∧
    ∃ g old es g', Generates counter g es g' ∧ List.Forall₂ (Records exText (fun n => (n : ℚ))
      (counter.xsec g) (counter.xsec g') es n) [exSaved [Event.toJson firstEvent] 1, exFresh none] fs' ∧
      n = old + es.length := by
  obtain ⟨fs', n, h⟩ := beside_run 3 stop
  obtain ⟨g, old, es, g', a1, a2, a3, -⟩ := C64_run_partial counter exText (fun n => (n : ℚ))
    counter_texts (fun _ => codedFloats_ok _) (.obj []) empty_config 3 (by decide) stop _ fs' (by
      intro f hf
      simp only [List.mem_cons, List.not_mem_nil, or_false] at hf
      rcases hf with rfl | rfl
      · exact exSaved_opened _ _
      · exact ⟨_, _, exFresh_opened none, rfl⟩) n h
  exact ⟨fs', n, h, g, old, es, g', a1, a2, a3⟩

/-- A text meets the hypothesis of `C64_sessions_partial`: the second run above. -/
example : ∃ text, Sessions counter exText text ∧ text ≠ [] := by
  have hr : resumeAll counter exText [exFresh none] none = ([exFresh none], .ok none) := by
    rw [resumeAll, if_neg (by rw [exFresh_mode]; decide), resumeAll]
  have hop : ∀ f ∈ [exFresh none], Opened f := by
    simp only [List.mem_singleton, forall_eq]
    exact ⟨_, _, exFresh_opened none, rfl⟩
  obtain ⟨fs', n, h⟩ := produce_total (F := exText) (cfg := .obj []) 3 (fun i => i == 2) hr
    (r := ((0 : Nat), 0)) rfl counter_total (by
      simp only [List.mem_singleton, forall_eq]; rw [exFresh_format]; decide)
  obtain ⟨g, old, es, g', a1, a2, -⟩ := C64_run_partial counter exText (fun n => (n : ℚ))
    counter_texts (fun _ => codedFloats_ok _) (.obj []) empty_config 3 (by decide) _ _ fs' hop n h
  cases a2 with
  | @cons _ f' _ _ b1 b2 =>
    refine ⟨f'.text, .first (.obj []) 3 _ _ _ n _ f' empty_config (by decide) hop h ?_
      (by simp) (exFresh_format none), ?_⟩
    · simp only [List.mem_singleton, forall_eq]
      rw [exFresh_mode]; decide
    · obtain ⟨_, _, hl, -⟩ := (b1.fresh (exFresh_format none) (exFresh_mode none)).1
      intro he
      rw [he] at hl
      simp [loadStream, skipWs] at hl

/-- The default job (no `executable_settings`) with the counter ends without an exception. -/
example (stop : Nat → Bool) :
    ∃ fs' n, run counter exText (.obj []) (.obj []) stop [⟨none, true, []⟩] = some (fs', .ok n) := by
  have e : run counter exText (.obj []) (.obj []) stop [⟨none, true, []⟩] =
    produce counter exText (.obj []) 1000 stop
      [⟨"events.ascii".toList, .ascii, .overwrite, none, false, 0, true, []⟩] := rfl
  rw [e]
  refine produce_total 1000 stop (cur := none) (r := ((0 : Nat), 0)) (by
    rw [resumeAll, if_neg (by decide), resumeAll]) rfl counter_total ?_
  simp only [List.mem_singleton, forall_eq]
  decide

/-- **C64 is violated** for a new JSON file beside a resumed one: it records the number of
events in both runs together, but contains only those of the second. -/
theorem C64_beside_violated : ∃ (fs' : List (OutFile ℚ)) (f' : OutFile ℚ) (es : List (Event ℚ)),
    produce counter exText (.obj []) 3 (fun _ => false)
      [exSaved [Event.toJson firstEvent] 1, exFresh none] = some (fs', .ok 3) ∧
    fs'[1]? = some f' ∧ Contains codedFloats (fun n => (n : ℚ)) f'.text es 3 ∧ es.length = 2 := by
  obtain ⟨fs', n, h⟩ := beside_run 3 (fun _ => false)
  obtain ⟨g, old, es, g', a1, a2, a3, a4, a5, a6, a7⟩ := C64_run_partial counter exText
    (fun n => (n : ℚ)) counter_texts (fun _ => codedFloats_ok _) (.obj []) empty_config 3
    (by decide) (fun _ => false) _ fs' (by
      intro f hf
      simp only [List.mem_cons, List.not_mem_nil, or_false] at hf
      rcases hf with rfl | rfl
      · exact exSaved_opened _ _
      · exact ⟨_, _, exFresh_opened none, rfl⟩) n h
  have hold : old = 1 := by
    rcases a7 with ⟨hall, -⟩ | ⟨a, f, b, f1, e, hm, -, hr⟩
    · exact absurd rfl (hall (exSaved [Event.toJson firstEvent] 1) (by simp))
    · obtain ⟨f2, h1, h2⟩ := exSaved_resume [Event.toJson firstEvent] firstEvent_json 1 (by decide)
      cases a with
      | nil =>
        simp only [List.nil_append, List.cons.injEq] at e
        obtain ⟨rfl, -⟩ := e
        rw [h1] at hr
        simp only [Prod.mk.injEq, Except.ok.injEq] at hr
        exact hr.2.2.symm
      | cons y a =>
        simp only [List.cons_append, List.cons.injEq] at e
        obtain ⟨-, e⟩ := e
        cases a with
        | nil =>
          simp only [List.nil_append, List.cons.injEq] at e
          obtain ⟨rfl, -⟩ := e
          rw [exFresh_mode] at hm
          cases hm
        | cons z a => simp at e
  have hn : n = 3 := by
    rcases a6 with h6 | h6
    · by_cases he : es = []
      · simp [he] at a3; omega
      · have := a4 he; omega
    · simp at h6
  subst hn
  cases a2 with
  | cons b1 b2 =>
    cases b2 with
    | cons c1 c2 =>
      refine ⟨_, _, es, h, rfl, (c1.fresh rfl rfl).1, by omega⟩

/-- **C62 is violated** by a job that asks to resume two files: it throws, and the first
of them, a file with an event in it, has been rewritten without its end and cannot be
loaded any more. -/
theorem C62_two_files_violated : ∃ (f1' : OutFile ℚ),
    Contains codedFloats (fun n => (n : ℚ)) (exSaved [Event.toJson firstEvent] 1).text [firstEvent] 1 ∧
    produce counter exText (.obj []) 3 (fun _ => false)
      [exSaved [Event.toJson firstEvent] 1, exSaved [] 0] =
      some ([f1', exSaved [] 0], .error .marleyError) ∧
    loadStream codedFloats f1'.text = .exc .marleyError := by
  obtain ⟨f1, h1, h2⟩ := exSaved_resume [Event.toJson firstEvent] firstEvent_json 1 (by decide)
  refine ⟨f1, exSaved_contains 1 (by decide), ?_, ?_⟩
  · rw [produce, resumeAll, if_pos (exSaved_mode _ _), if_neg (by simp), h1]
    simp only
    rw [resumeAll, if_pos (exSaved_mode _ _), if_pos (by simp)]
  · have e : reloadList [Event.toJson firstEvent] = [Event.toJson firstEvent] :=
      reload_events (ops := codedFloats) (es := [firstEvent])
        (by simp only [List.mem_singleton, forall_eq]; exact firstEvent_ok)
    rw [e] at h2
    refine holds_open h2 firstEvent_json ?_
    simp only [List.mem_singleton, forall_eq]
    exact ⟨_, toJson_eq _⟩

end Marley.Props
