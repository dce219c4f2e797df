import Mathlib.Data.List.Forall2
import Verif.Props.OutputFile

/-!
# C61, C62 and C64: what is in the output files

`TextOutputFile`s are opened, written, closed and resumed one at a time in C61 and C62;
C64 is about the whole program.
-/

set_option autoImplicit false

namespace Marley.Props
open Marley Marley.Json Marley.Out

variable {K γ : Type}

/-! ## Helpers -/

theorem opened_facts [Zero K] {r : Request} {d : Disk} {f : OutFile K}
    (h : (openFile r d).2 = .ok f) (hw : d.writable = true) :
    f.good = true ∧ f.needsComma = false ∧ f.indent = r.indent ∧
      (f.format = .json → f.mode = .overwrite → f.text = startText f.indent) ∧
      (f.format = .json → f.mode = .overwrite ∨ f.mode = .resume) ∧ f.format = .json ∨
    f.format ≠ .json ∧ f.good = true ∧ f.mode ≠ .resume := by
  unfold openFile at h
  rcases hf : formatOf r.format with x | fmt
  · simp [hf] at h
  simp only [hf] at h
  rcases hm : modeOf fmt r.mode with x | asked
  · simp [hm] at h
  simp only [hm] at h
  generalize hmode : (if asked = .overwrite ∧ d.existing.isSome ∧ r.force = false ∧
    promptYesNo d.input = false then (if fmt = .json then Mode.resume else .append) else asked)
      = mode at h
  by_cases h1 : mode = .resume ∧ fmt ≠ .json
  · rw [if_pos h1] at h; simp at h
  rw [if_neg h1] at h
  by_cases h2 : mode = .resume ∧ d.existing = none
  · rw [if_pos h2] at h; simp at h
  rw [if_neg h2] at h
  simp only [Except.ok.injEq] at h
  have hj : fmt = .json → mode = .overwrite ∨ mode = .resume := by
    rintro rfl
    by_cases hc : asked = .overwrite ∧ d.existing.isSome ∧ r.force = false ∧
      promptYesNo d.input = false
    · rw [if_pos hc] at hmode
      exact .inr (by simpa using hmode.symm)
    · rw [if_neg hc] at hmode
      subst hmode
      rcases (modeOf_iff _ _ _).1 hm with ⟨-, h⟩ | ⟨-, -, h⟩ | ⟨-, h, -⟩
      · exact .inl h
      · rcases h with h | h <;> cases h
      · exact .inr h
  by_cases hfj : fmt = .json
  · left
    subst hfj
    rcases hj rfl with rfl | rfl
    · subst h
      simp [hw, OutFile.put]
    · subst h
      simp [hw]
  · right
    subst h
    have : ¬ (fmt = .json ∧ mode = .overwrite) := fun h => hfj h.1
    simp only [if_neg this]
    exact ⟨hfj, hw, fun h => h1 ⟨h, hfj⟩⟩

theorem opened_holds [Zero K] {ops : FloatOps K} {r : Request} {d : Disk} {f : OutFile K}
    (h : (openFile r d).2 = .ok f) (hw : d.writable = true) (hf : f.format = .json)
    (hm : f.mode = .overwrite) : Holds ops f [] ∧ f.indent = r.indent := by
  rcases opened_facts h hw with ⟨h1, h2, h3, h4, -, -⟩ | ⟨h1, -⟩
  · exact ⟨holds_start hf h1 h2 (h4 hf hm), h3⟩
  · exact absurd hf h1

theorem holds_contains {G : GenOps K γ} {F : TextFmt K} {f : OutFile K} {es : List (Event K)}
    (ofLong : Int → K) (h : Holds F.json f (es.map Event.toJson))
    (he : ∀ e ∈ es, EventText F.json e) {cfg : JVal K}
    (hc : Holdable (FloatOk F.json) cfg) {g : γ} (hx : FloatOk F.json (G.xsec g)) {n : Int}
    (hn : longMin ≤ n ∧ n ≤ longMax) :
    Contains F.json ofLong (closeFile G F f cfg g n).text es n := by
  have hw : ∀ v ∈ es.map Event.toJson, WF F.json v := by
    simp only [List.mem_map, forall_exists_index, and_imp, forall_apply_eq_imp_iff₂]
    exact fun e h => (event_wf (he e h)).1
  have := holds_close (G := G) h hw hc hx hn
  rw [reload_events he, genState_reload] at this
  refine ⟨_, _, this, rfl, ?_, rfl⟩
  rw [List.map_map]
  apply List.map_congr_left
  intro e h
  exact C11_event_json_roundtrip ofLong e (he e h).1

theorem holds_fluxIs {G : GenOps K γ} {F : TextFmt K} {f : OutFile K} {es : List (Event K)}
    (h : Holds F.json f (es.map Event.toJson)) (he : ∀ e ∈ es, EventText F.json e) {cfg : JVal K}
    (hc : Holdable (FloatOk F.json) cfg) {g : γ} (hx : FloatOk F.json (G.xsec g)) {n : Int}
    (hn : longMin ≤ n ∧ n ≤ longMax) :
    FluxIs F.json (closeFile G F f cfg g n).text (G.xsec g) := by
  have hw : ∀ v ∈ es.map Event.toJson, WF F.json v := by
    simp only [List.mem_map, forall_exists_index, and_imp, forall_apply_eq_imp_iff₂]
    exact fun e h => (event_wf (he e h)).1
  have := holds_close (G := G) h hw hc hx hn
  rw [genState_reload] at this
  refine ⟨?_, _, _, this, rfl, rfl⟩
  obtain ⟨h1, h2, -, t, -, ht⟩ := h
  rw [closeFile, if_pos h1, OutFile.put, if_pos h2]
  simp only [ht]
  cases f.indent <;> rfl

/-- The document of a `Contains` file that is continued. -/
theorem contains_resume {G : GenOps K γ} {F : TextFmt K} {ofLong : Int → K} {f f' : OutFile K}
    {g : γ} {old old' : Int} {olds : List (Event K)} (hg : f.good = true)
    (h : resume G F f = (f', .ok (g, old))) (hc : Contains F.json ofLong f.text olds old') :
    Holds F.json f' (olds.map Event.toJson) ∧ old = old' ∧ f'.indent = f.indent := by
  obtain ⟨h1, h2, m, rest, h3, h4, h5, h6, -⟩ := resume_ok h
  obtain ⟨events, gs, c1, rfl, c3, c4⟩ := hc
  rw [c1] at h3
  simp only [PR.ok.injEq, JVal.obj.injEq] at h3
  obtain ⟨rfl, -⟩ := h3
  refine ⟨by simpa [arrayRange] using h5 hg, ?_, h6⟩
  obtain ⟨m, gs', cfg, st, g0, a0, a1, -, -, a4, -⟩ := restore_ok h4
  cases a0
  have e1 : (([("events".toList, JVal.arr (olds.map Event.toJson)), ("gen_state".toList, .obj gs)] :
      List (Str × JVal K))).lookup "gen_state".toList = some (.obj gs) := rfl
  rw [e1] at a1
  cases a1
  rw [c4] at a4
  cases a4
  rfl

/-! ## C61: the document -/

/-- **C61**, a new file: a JSON file that was opened (for whatever reason it is new), given
the flux-averaged cross section and any events, and closed, is one JSON object that
holds exactly these events in order and the number given to `close`, for every
indentation.  Missing from the full claim: doubles that do not survive JSON text (C04),
and files that cannot be written, see `C61_unwritable_violated`. -/
theorem C61_fresh_partial [DivisionRing K] (G : GenOps K γ) (F : TextFmt K) (ofLong : Int → K)
    (r : Request) (d : Disk) (f : OutFile K) (ho : (openFile r d).2 = .ok f)
    (hw : d.writable = true) (hf : f.format = .json) (hm : f.mode = .overwrite) (x : K)
    (es : List (Event K)) (he : ∀ e ∈ es, EventText F.json e) (cfg : JVal K)
    (hc : Holdable (FloatOk F.json) cfg) (g : γ) (hx : FloatOk F.json (G.xsec g)) (n : Int)
    (hn : longMin ≤ n ∧ n ≤ longMax) :
    Contains F.json ofLong
      (closeFile G F (es.foldl (fun f e => (writeEvent F f e).1) (writeFlux F f x)) cfg g n).text
      es n := by
  have h1 := (opened_holds (ops := F.json) ho hw hf hm).1
  have h2 := holds_push (holds_flux h1 x).1 es
  rw [List.nil_append] at h2
  exact holds_contains ofLong h2 he hc hx hn

/-- A new file with the events 0 and 1 of the counter. -/
noncomputable def exFresh (indent : Option Nat) : OutFile ℚ :=
  ⟨"events.json".toList, .json, .overwrite, indent, false, 0, true, startText indent⟩

theorem exFresh_opened (indent : Option Nat) :
    (openFile (jsonRequest "overwrite" indent) ⟨none, true, []⟩).2 = .ok (exFresh indent) := by
  rfl

theorem empty_config : Holdable (FloatOk codedFloats) (.obj []) :=
  .obj [] List.Pairwise.nil (by simp)

example (indent : Option Nat) : Contains codedFloats (fun n => (n : ℚ))
    (closeFile counter exText ([{ sampleEvent with twoJ := 0 }, { sampleEvent with twoJ := 2 }].foldl
      (fun f e => (writeEvent exText f e).1) (writeFlux exText (exFresh indent) (3 / 2)))
      (.obj []) (2 : Nat) 2).text
    [{ sampleEvent with twoJ := 0 }, { sampleEvent with twoJ := 2 }] 2 :=
  C61_fresh_partial counter exText _ _ _ _ (exFresh_opened indent) rfl rfl rfl _ _
    (by
      intro e he
      simp only [List.mem_cons, List.not_mem_nil, or_false] at he
      rcases he with rfl | rfl
      · exact counter_event 0
      · exact counter_event 1) _ empty_config _ (codedFloats_ok _) _ (by decide)

/-- **C61**, a resumed file: the events that were in the file come first.  Missing as in
`C61_fresh_partial`; files with other content are the subject of C62. -/
theorem C61_resumed_partial [DivisionRing K] (G : GenOps K γ) (F : TextFmt K) (ofLong : Int → K)
    (f f' : OutFile K) (hgood : f.good = true) (g0 : γ) (old old' : Int) (olds : List (Event K))
    (hr : resume G F f = (f', .ok (g0, old))) (hold : Contains F.json ofLong f.text olds old')
    (holds : ∀ e ∈ olds, EventText F.json e) (x : K) (es : List (Event K))
    (he : ∀ e ∈ es, EventText F.json e) (cfg : JVal K) (hc : Holdable (FloatOk F.json) cfg) (g : γ)
    (hx : FloatOk F.json (G.xsec g)) (n : Int) (hn : longMin ≤ n ∧ n ≤ longMax) :
    old = old' ∧ Contains F.json ofLong
      (closeFile G F (es.foldl (fun f e => (writeEvent F f e).1) (writeFlux F f' x)) cfg g n).text
      (olds ++ es) n := by
  obtain ⟨h1, h2, -⟩ := contains_resume hgood hr hold
  refine ⟨h2, ?_⟩
  have h3 := holds_push (holds_flux h1 x).1 es
  rw [← List.map_append] at h3
  refine holds_contains ofLong h3 ?_ hc hx hn
  intro e hmem
  rcases List.mem_append.1 hmem with h | h
  · exact holds e h
  · exact he e h

/-- **C61**, the state: beside the number of events, the closed file (new or resumed) holds
the configuration, the state of the random number generator, the seed and the
flux-averaged cross section, and resuming it gives the generator made from that
configuration with that state, and that number.  Missing: as in `C61_fresh_partial`; keys
of the configuration that need escaping come back escaped (C01). -/
theorem C61_state_partial (G : GenOps K γ) (F : TextFmt K) (f : OutFile K) (l : List (JVal K))
    (hf : Holds F.json f l) (hl : ∀ v ∈ l, Holdable (FloatOk F.json) v) (cfg : JVal K)
    (hc : Holdable (FloatOk F.json) cfg) (hk : PlainKeys cfg) (g : γ)
    (hx : FloatOk F.json (G.xsec g)) (hs : ∀ c ∈ G.state g, ¬ NeedsEscape c) (n : Int)
    (hn : longMin ≤ n ∧ n ≤ longMax) :
    ∃ events gs, loadStream F.json (closeFile G F f cfg g n).text =
        .ok (.obj [("events".toList, .arr events), ("gen_state".toList, .obj gs)]) [] ∧
      gs.lookup "config".toList = some cfg ∧ gs.lookup "event_count".toList = some (.int n) ∧
      gs.lookup "generator_state_string".toList = some (.str (G.state g)) ∧
      gs.lookup "seed".toList = some (.str (natText (G.seed g))) ∧
      gs.lookup "flux_avg_xsec".toList = some (.float (G.xsec g)) ∧
      ∀ g0, G.create cfg = .ok g0 → ∀ f2 : OutFile K, f2.format = .json → f2.mode = .resume →
        f2.text = (closeFile G F f cfg g n).text →
        ∃ f', resume G F f2 = (f', .ok (G.setState g0 (G.state g), n)) := by
  have h1 := holds_close (G := G) hf hl hc hx hn
  rw [genState_reload, reload_plain F.json cfg hc hk] at h1
  refine ⟨_, _, h1, rfl, rfl, rfl, rfl, rfl, ?_⟩
  intro g0 hg0 f2 a1 a2 a3
  rw [resume, if_neg (by simpa using a2), if_neg (by simpa using a1), a3, h1]
  simp only
  have : restore G (.obj [("events".toList, .arr (reloadList l)), ("gen_state".toList,
      .obj [("config".toList, cfg), ("event_count".toList, .int n),
        ("flux_avg_xsec".toList, .float (G.xsec g)),
        ("generator_state_string".toList, .str (G.state g)),
        ("seed".toList, .str (natText (G.seed g)))])]) = .ok (G.setState g0 (G.state g), n) := by
    have key : ∀ (a b c d : JVal K) , restore G (.obj [("events".toList, a), ("gen_state".toList,
      .obj [("config".toList, cfg), ("event_count".toList, .int n),
        ("flux_avg_xsec".toList, b), ("generator_state_string".toList, c),
        ("seed".toList, d)])]) = match G.create cfg with
            | .error e => .error e
            | .ok g => .ok (G.setState g (toStr c), n) := fun a b c d => rfl
    rw [key, hg0]
    simp only [toStr]
    rw [jsonEscape_plain hs]
  rw [this]
  exact ⟨_, rfl⟩

example : ∃ f', resume counter exText { exFresh none with
      mode := .resume, text := (closeFile counter exText (exFresh none) (.obj []) (2 : Nat) 5).text } =
    (f', .ok ((2 : Nat), 5)) := by
  obtain ⟨-, -, -, -, -, -, -, -, h⟩ := C61_state_partial counter exText (exFresh none) []
    (holds_start rfl rfl rfl rfl) (by simp) (.obj []) empty_config (.obj [] (by simp) (by simp))
    (2 : Nat) (codedFloats_ok _) (by simp [counter, NeedsEscape]) 5 (by decide)
  exact h 0 rfl _ rfl rfl rfl

/-- **C61 is violated** for a file that cannot be opened for writing: no exception is
thrown at any point, and the file stays as it was. -/
theorem C61_unwritable_violated [DivisionRing K] (G : GenOps K γ) (F : TextFmt K) (text : Option Str)
    (indent : Option Nat) : ∃ f : OutFile K,
    openFile (jsonRequest "overwrite" indent) ⟨text, false, [['y']]⟩ = (text, .ok f) ∧
    ∀ (x : K) (es : List (Event K)) (cfg : JVal K) (g : γ) (n : Int),
      (∀ e, (writeEvent F (writeFlux F f x) e).2 = .ok ()) ∧
      (closeFile G F (es.foldl (fun f e => (writeEvent F f e).1) (writeFlux F f x)) cfg g n).text =
        text.getD [] := by
  have ho : openFile (K := K) (jsonRequest "overwrite" indent) ⟨text, false, [['y']]⟩ =
      (text, .ok ⟨"events.json".toList, .json, .overwrite, indent, false, 0, false, text.getD []⟩) := by
    cases text <;> rfl
  refine ⟨_, ho, fun x es cfg g n => ⟨fun e => rfl, ?_⟩⟩
  obtain ⟨h1, h2⟩ := push_bad (F := F) (f := writeFlux F
    ⟨"events.json".toList, .json, .overwrite, indent, false, 0, false, text.getD []⟩ x) rfl es
  rw [pushEvents] at h1 h2
  rw [closeFile]
  split
  · rw [put_bad h2, h1]; rfl
  · rw [h1]; rfl

/-! ## C62: resuming -/

/-- **C62**, failures: whenever `resume` throws, the file is exactly what it was. -/
theorem C62_error_keeps (G : GenOps K γ) (F : TextFmt K) (f : OutFile K) (x : Exc)
    (h : (resume G F f).2 = .error x) : (resume G F f).1 = f := by
  rw [resume] at h ⊢
  by_cases h1 : f.mode ≠ .resume
  · rw [if_pos h1]
  by_cases h2 : f.format ≠ .json
  · rw [if_neg h1, if_pos h2]
  · rw [if_neg h1, if_neg h2] at h ⊢
    rcases hl : loadStream F.json f.text with ⟨doc, rest⟩ | e | _
    · simp only [hl] at h ⊢
      rcases hr : restore G doc with e | r
      · rfl
      · simp [hr] at h
    · rfl
    · rfl

example (indent : Option Nat) :
    resume counter exText { exFresh indent with mode := .resume } =
      ({ exFresh indent with mode := .resume }, .error .marleyError) := by
  have h := holds_open (ops := exText.json) (f := exFresh indent) (l := [])
    (holds_start rfl rfl rfl rfl) (by simp) (by simp)
  rw [resume, if_neg (fun h => h rfl), if_neg (fun h => h rfl)]
  have h' : loadStream exText.json { exFresh indent with mode := .resume }.text =
      .exc .marleyError := h
  simp only [h']

/-- **C62**: for every content of the file, either `resume` throws and the file is
unchanged, or the file was a JSON object with a saved state, and after any further
events and `close` the array `events` starts with exactly the elements it had, in order,
and continues with the new events.  Missing from the full claim: elements of `events`
(which need not be events at all) with keys that need escaping or with doubles that do
not survive JSON text, see `C62_keys_violated`. -/
theorem C62_resume_partial [DivisionRing K] (G : GenOps K γ) (F : TextFmt K) (f : OutFile K)
    (hgood : f.good = true) :
    (∃ x, resume G F f = (f, .error x)) ∨
    ∃ f' g0 n0 m rest, resume G F f = (f', .ok (g0, n0)) ∧
      loadStream F.json f.text = .ok (.obj m) rest ∧
      ∀ old, (m.lookup "events".toList = some (.arr old) ∨ m.lookup "events".toList = none ∧ old = []) →
        (∀ v ∈ old, Holdable (FloatOk F.json) v ∧ PlainKeys v) →
        ∀ (x : K) (es : List (Event K)), (∀ e ∈ es, EventText F.json e) → ∀ (cfg : JVal K),
          Holdable (FloatOk F.json) cfg → ∀ (g : γ), FloatOk F.json (G.xsec g) → ∀ (n : Int),
          longMin ≤ n ∧ n ≤ longMax →
          ∃ gs, loadStream F.json (closeFile G F
              (es.foldl (fun f e => (writeEvent F f e).1) (writeFlux F f' x)) cfg g n).text =
            .ok (.obj [("events".toList, .arr (old ++ es.map Event.toJson)), ("gen_state".toList, gs)])
              [] := by
  rcases hr : resume G F f with ⟨f', x | ⟨g0, n0⟩⟩
  · left
    have := C62_error_keeps G F f x (by rw [hr])
    rw [hr] at this
    exact ⟨x, by rw [← this]⟩
  · right
    obtain ⟨h1, h2, m, rest, h3, h4, h5, h6, -⟩ := resume_ok hr
    refine ⟨f', g0, n0, m, rest, rfl, h3, ?_⟩
    intro old hold hv x es he cfg hc g hx n hn
    have hh : Holds F.json f' old := by
      have := h5 hgood
      rcases hold with h | ⟨h, rfl⟩
      · rw [h] at this; exact this
      · rw [h] at this; exact this
    have hp := holds_push (holds_flux hh x).1 es
    have hw : ∀ v ∈ old ++ es.map Event.toJson, WF F.json v := by
      intro v hmem
      rcases List.mem_append.1 hmem with h | h
      · exact (hv v h).1
      · obtain ⟨e, h', rfl⟩ := List.mem_map.1 h
        exact (event_wf (he e h')).1
    have hcl := holds_close (G := G) hp hw hc hx hn
    refine ⟨reload (genState G cfg g n), ?_⟩
    rw [pushEvents] at hcl
    rw [hcl]
    have : reloadList (old ++ es.map Event.toJson) = old ++ es.map Event.toJson := by
      rw [reloadList_map, List.map_append, ← reloadList_map, ← reloadList_map, reload_events he,
        reloadList_map]
      congr 1
      conv_rhs => rw [← List.map_id old]
      apply List.map_congr_left
      intro v h
      exact reload_plain F.json v (hv v h).1 (hv v h).2
    rw [this]

/-- A value that is not an event: an object whose key is a quote. -/
def quoteKey : JVal ℚ := .obj [(['"'], .int 1)]

/-- A file to be resumed, with a given element in the array `events`. -/
noncomputable def exSaved (l : List (JVal ℚ)) (n : Int) : OutFile ℚ :=
  { exFresh none with
    mode := .resume
    text := (closeFile counter exText { exFresh none with
      text := startText none ++ rewriteText codedFloats none true l
      needsComma := !l.isEmpty } (.obj []) (1 : Nat) n).text }

theorem exSaved_holds (l : List (JVal ℚ)) : Holds codedFloats { exFresh none with
      text := startText none ++ rewriteText codedFloats none true l
      needsComma := !l.isEmpty } l := by
  refine ⟨rfl, rfl, rfl, ?_⟩
  obtain ⟨ws, hws, e⟩ := startText_eq none
  refine ⟨_, rewrite_elems codedFloats none l [] ws (.none ws hws), ?_⟩
  show startText none ++ _ = headText none ++ _
  rw [e, List.append_assoc]
  rfl

theorem exSaved_load (l : List (JVal ℚ)) (hl : ∀ v ∈ l, Holdable (FloatOk codedFloats) v) (n : Int)
    (hn : longMin ≤ n ∧ n ≤ longMax) :
    loadStream codedFloats (exSaved l n).text = .ok (.obj [("events".toList, .arr (reloadList l)),
      ("gen_state".toList, reload (genState counter (.obj []) (1 : Nat) n))]) [] :=
  holds_close (G := counter) (F := exText) (exSaved_holds l) hl empty_config (codedFloats_ok _) hn

theorem exSaved_resume (l : List (JVal ℚ)) (hl : ∀ v ∈ l, Holdable (FloatOk codedFloats) v) (n : Int)
    (hn : longMin ≤ n ∧ n ≤ longMax) :
    ∃ f', resume counter exText (exSaved l n) = (f', .ok ((1 : Nat), n)) ∧
      Holds codedFloats f' (reloadList l) := by
  obtain ⟨-, -, -, -, -, -, -, -, h⟩ := C61_state_partial counter exText _ l
    (exSaved_holds l) hl (.obj []) empty_config (.obj [] (by simp) (by simp))
    (1 : Nat) (codedFloats_ok _) (by simp [counter, NeedsEscape]) n hn
  obtain ⟨f', hf'⟩ := h 0 rfl (exSaved l n) rfl rfl rfl
  have hf'' : resume counter exText (exSaved l n) = (f', .ok ((1 : Nat), n)) := hf'
  refine ⟨f', hf'', ?_⟩
  obtain ⟨-, -, m, rest, h3, -, h5, -⟩ := resume_ok hf''
  have := exSaved_load l hl n hn
  rw [show exText.json = codedFloats from rfl, this] at h3
  simp only [PR.ok.injEq, JVal.obj.injEq] at h3
  obtain ⟨rfl, -⟩ := h3
  exact h5 rfl

theorem quoteKey_ok : Holdable (FloatOk codedFloats) quoteKey ∧
    Holdable (FloatOk codedFloats) (reload quoteKey) := by
  constructor
  · refine .obj _ (List.pairwise_singleton _ _) ?_
    simp only [List.mem_singleton, forall_eq]
    exact .int _ (by decide) (by decide)
  · have : reload quoteKey = .obj [(jsonEscape ['"'], .int 1)] := by
      simp [quoteKey, reload, reloadMap, mapSet]
    rw [this]
    refine .obj _ (List.pairwise_singleton _ _) ?_
    simp only [List.mem_singleton, forall_eq]
    exact .int _ (by decide) (by decide)

/-- **C62 is violated** for elements of `events` whose keys need escaping: the file is
resumed without an error, and closing it without any new event leaves other keys. -/
theorem C62_keys_violated : ∃ (f f' : OutFile ℚ) (v v' gs gs' : JVal ℚ) (g : Nat),
    loadStream codedFloats f.text =
      .ok (.obj [("events".toList, .arr [v]), ("gen_state".toList, gs)]) [] ∧
    resume counter exText f = (f', .ok (g, 1)) ∧
    loadStream codedFloats (closeFile counter exText f' (.obj []) g 1).text =
      .ok (.obj [("events".toList, .arr [v']), ("gen_state".toList, gs')]) [] ∧ v' ≠ v := by
  have hl : ∀ v ∈ [quoteKey], Holdable (FloatOk codedFloats) v := by
    simp only [List.mem_singleton, forall_eq]; exact quoteKey_ok.1
  have hl2 : ∀ v ∈ reloadList [quoteKey], Holdable (FloatOk codedFloats) v := by
    simp only [reloadList, List.mem_singleton, forall_eq]; exact quoteKey_ok.2
  obtain ⟨f', h1, h2⟩ := exSaved_resume [quoteKey] hl 1 (by decide)
  have h3 := exSaved_load [quoteKey] hl 1 (by decide)
  have h4 := holds_close (G := counter) (F := exText) h2 hl2 empty_config (g := (1 : Nat))
    (codedFloats_ok _) (n := 1) (by decide)
  refine ⟨exSaved [quoteKey] 1, f', reload quoteKey, reload (reload quoteKey), _, _, 1, h3, h1, h4, ?_⟩
  have e1 : reload quoteKey = .obj [(['\\', '"'], .int 1)] := rfl
  have e2 : reload (.obj [(['\\', '"'], .int 1)] : JVal ℚ) =
      .obj [(['\\', '\\', '\\', '"'], .int 1)] := rfl
  rw [e1, e2]
  intro h
  simp at h

end Marley.Props
