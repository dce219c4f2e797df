import Verif.Lemmas.OutputFile
import Verif.Spec.OutputFile

/-! What the files hold at every moment. -/

set_option autoImplicit false

namespace Marley.Out
open Marley Marley.Json

variable {K γ : Type}

/-! ## Values -/

theorem sorted_keys {m : List (Str × JVal K)} (h : (m.map Prod.fst).Pairwise
    (fun a b => keyLt a b = true)) : m.Pairwise (fun p q => keyLt p.1 q.1 = true) :=
  List.pairwise_map.1 h

theorem toJson_eq (e : Event K) : Event.toJson e =
    .obj [("Ex".toList, .float e.Ex),
      ("final_particles".toList, .arr (e.final.map Event.particleToJson)),
      ("initial_particles".toList, .arr (e.initial.map Event.particleToJson)),
      ("parity".toList, .int e.parity.toInt), ("twoJ".toList, .int e.twoJ)] := by
  have key : ∀ (a b : JVal K) (c d e : JVal K),
      Event.objOf [("Ex".toList, a), ("twoJ".toList, b), ("parity".toList, c),
        ("initial_particles".toList, d), ("final_particles".toList, e)] =
      .obj [("Ex".toList, a), ("final_particles".toList, e), ("initial_particles".toList, d),
        ("parity".toList, c), ("twoJ".toList, b)] := by
    intro a b c d e; rfl
  rw [Event.toJson, key]

theorem particleToJson_eq (p : Particle K) : Event.particleToJson p =
    .obj [("E".toList, .float p.E), ("charge".toList, .int p.charge),
      ("mass".toList, .float p.mass), ("pdg".toList, .int p.pdg), ("px".toList, .float p.px),
      ("py".toList, .float p.py), ("pz".toList, .float p.pz)] := rfl

theorem genState_eq (G : GenOps K γ) (cfg : JVal K) (g : γ) (n : Int) : genState G cfg g n =
    .obj [("config".toList, cfg), ("event_count".toList, .int n),
      ("flux_avg_xsec".toList, .float (G.xsec g)),
      ("generator_state_string".toList, .str (G.state g)),
      ("seed".toList, .str (natText (G.seed g)))] := by
  have key : ∀ (a b : JVal K) (c d e : JVal K),
      Event.objOf [("config".toList, a), ("generator_state_string".toList, b),
        ("seed".toList, c), ("event_count".toList, d), ("flux_avg_xsec".toList, e)] =
      .obj [("config".toList, a), ("event_count".toList, d), ("flux_avg_xsec".toList, e),
        ("generator_state_string".toList, b), ("seed".toList, c)] := by
    intro a b c d e; rfl
  rw [genState, key]

theorem int_long {n : Int} (h : intMin ≤ n ∧ n ≤ intMax) : longMin ≤ n ∧ n ≤ longMax := by
  simp only [intMin, intMax, longMin, longMax] at *
  omega

theorem particle_wf {ops : FloatOps K} {p : Particle K} (h : p.Fits) (ht : ParticleText ops p) :
    WF ops (Event.particleToJson p) ∧ PlainKeys (Event.particleToJson p) := by
  obtain ⟨h1, h2⟩ := h
  obtain ⟨t1, t2, t3, t4, t5⟩ := ht
  rw [particleToJson_eq]
  constructor
  · refine .obj _ (sorted_keys (by simp only [List.map]; decide)) ?_
    intro q hq
    simp only [List.mem_cons, List.not_mem_nil, or_false] at hq
    rcases hq with rfl | rfl | rfl | rfl | rfl | rfl | rfl
    · exact .float _ t1
    · exact .int _ (int_long h2).1 (int_long h2).2
    · exact .float _ t5
    · exact .int _ (int_long h1).1 (int_long h1).2
    · exact .float _ t2
    · exact .float _ t3
    · exact .float _ t4
  · refine .obj _ ?_ ?_
    · intro q hq
      simp only [List.mem_cons, List.not_mem_nil, or_false] at hq
      rcases hq with rfl | rfl | rfl | rfl | rfl | rfl | rfl <;> simp [NeedsEscape]
    · intro q hq
      simp only [List.mem_cons, List.not_mem_nil, or_false] at hq
      rcases hq with rfl | rfl | rfl | rfl | rfl | rfl | rfl <;> constructor

theorem event_wf {ops : FloatOps K} {e : Event K} (h : EventText ops e) :
    WF ops (Event.toJson e) ∧ PlainKeys (Event.toJson e) := by
  obtain ⟨⟨f1, f2, f3, -⟩, t1, t2⟩ := h
  have hp : ∀ (l : List (Particle K)), (∀ p ∈ l, p.Fits ∧ ParticleText ops p) →
      WF ops (.arr (l.map Event.particleToJson)) ∧ PlainKeys (.arr (l.map Event.particleToJson)) := by
    intro l hl
    constructor
    · refine .arr _ ?_
      simp only [List.mem_map, forall_exists_index, and_imp, forall_apply_eq_imp_iff₂]
      exact fun p hp => (particle_wf (hl p hp).1 (hl p hp).2).1
    · refine .arr _ ?_
      simp only [List.mem_map, forall_exists_index, and_imp, forall_apply_eq_imp_iff₂]
      exact fun p hp => (particle_wf (hl p hp).1 (hl p hp).2).2
  have a1 := hp e.initial (fun p hp => ⟨f1 p hp, t2 p (by simp [hp])⟩)
  have a2 := hp e.final (fun p hp => ⟨f2 p hp, t2 p (by simp [hp])⟩)
  have hpar : longMin ≤ e.parity.toInt ∧ e.parity.toInt ≤ longMax := by
    rcases e.parity with ⟨b⟩; cases b <;> decide
  rw [toJson_eq]
  constructor
  · refine .obj _ (sorted_keys (by simp only [List.map]; decide)) ?_
    intro q hq
    simp only [List.mem_cons, List.not_mem_nil, or_false] at hq
    rcases hq with rfl | rfl | rfl | rfl | rfl
    · exact .float _ t1
    · exact a2.1
    · exact a1.1
    · exact .int _ hpar.1 hpar.2
    · exact .int _ (int_long f3).1 (int_long f3).2
  · refine .obj _ ?_ ?_
    · intro q hq
      simp only [List.mem_cons, List.not_mem_nil, or_false] at hq
      rcases hq with rfl | rfl | rfl | rfl | rfl <;> simp [NeedsEscape]
    · intro q hq
      simp only [List.mem_cons, List.not_mem_nil, or_false] at hq
      rcases hq with rfl | rfl | rfl | rfl | rfl
      · constructor
      · exact a2.2
      · exact a1.2
      · constructor
      · constructor

theorem reload_events {ops : FloatOps K} {es : List (Event K)} (h : ∀ e ∈ es, EventText ops e) :
    reloadList (es.map Event.toJson) = es.map Event.toJson := by
  rw [reloadList_map, List.map_map]
  apply List.map_congr_left
  intro e he
  exact reload_plain ops _ (event_wf (h e he)).1 (event_wf (h e he)).2

theorem genState_wf {G : GenOps K γ} {ops : FloatOps K} {cfg : JVal K} {g : γ} {n : Int}
    (hc : WF ops cfg) (hx : FloatOk ops (G.xsec g)) (hn : longMin ≤ n ∧ n ≤ longMax) :
    WF ops (genState G cfg g n) := by
  rw [genState_eq]
  refine .obj _ (sorted_keys (by simp only [List.map]; decide)) ?_
  intro q hq
  simp only [List.mem_cons, List.not_mem_nil, or_false] at hq
  rcases hq with rfl | rfl | rfl | rfl | rfl
  · exact hc
  · exact .int _ hn.1 hn.2
  · exact .float _ hx
  · exact .str _
  · exact .str _

theorem genState_reload (G : GenOps K γ) (cfg : JVal K) (g : γ) (n : Int) :
    reload (genState G cfg g n) =
      .obj [("config".toList, reload cfg), ("event_count".toList, .int n),
      ("flux_avg_xsec".toList, .float (G.xsec g)),
      ("generator_state_string".toList, .str (G.state g)),
      ("seed".toList, .str (natText (G.seed g)))] := by
  rw [genState_eq]
  simp only [reload, reloadMap]
  rfl

/-! ## Pieces of text -/

theorem blank_newline (n : Nat) : Blank (newline n) := by
  have : Blank ['\n'] := by simp [Blank, isSpace]
  exact blank_append this (blank_spaces n)

theorem blank_break (indent : Option Nat) (k : Nat) : Blank (breakIfPos indent k) := by
  cases indent with
  | none => exact blank_nil
  | some n =>
    simp only [breakIfPos]
    split
    · exact blank_newline _
    · exact blank_nil

theorem valueText_printed (ops : FloatOps K) (indent : Option Nat) (k : Nat) (v : JVal K) :
    Printed ops v (valueText ops indent k v) := by
  cases indent with
  | none => exact ⟨0, false, 0, rfl⟩
  | some n => exact ⟨n, true, k * n, rfl⟩

/-- The start of the document up to the bracket. -/
def headText : Option Nat → Str
  | none => '{' :: '"' :: ("events".toList ++ ['"', ':', '['])
  | some n => '{' :: (newline n ++ '"' :: ("events".toList ++ ['"', ' ', ':', ' ', '[']))

theorem startText_eq (indent : Option Nat) : ∃ ws, Blank ws ∧ startText indent = headText indent ++ ws := by
  cases indent with
  | none => exact ⟨[], blank_nil, by simp only [startText, headText, List.append_nil]⟩
  | some n => exact ⟨_, blank_newline (2 * n), by
    simp only [startText, headText, List.cons_append, List.append_assoc, List.nil_append]⟩

/-- A JSON file that is being written holds the values `l`. -/
structure Holds (ops : FloatOps K) (f : OutFile K) (l : List (JVal K)) : Prop where
  format : f.format = .json
  good : f.good = true
  comma : f.needsComma = !l.isEmpty
  text : ∃ s, Elems ops l s ∧ f.text = headText f.indent ++ s

theorem holds_start {ops : FloatOps K} {f : OutFile K} (h1 : f.format = .json) (h2 : f.good = true)
    (h3 : f.needsComma = false) (h4 : f.text = startText f.indent) : Holds ops f [] := by
  refine ⟨h1, h2, by simpa using h3, ?_⟩
  obtain ⟨ws, hws, e⟩ := startText_eq f.indent
  exact ⟨ws, .none ws hws, by rw [h4, e]⟩

theorem elems_push {ops : FloatOps K} {l : List (JVal K)} {s ws t : Str} {v : JVal K}
    (h : Elems ops l s) (hne : l ≠ []) (hws : Blank ws) (ht : Printed ops v t) :
    Elems ops (l ++ [v]) (s ++ ',' :: (ws ++ t)) := .more l s ws v t hne h hws ht

theorem elems_first {ops : FloatOps K} {s ws t : Str} {v : JVal K}
    (h : Elems ops [] s) (hws : Blank ws) (ht : Printed ops v t) :
    Elems ops [v] (s ++ (ws ++ t)) := by
  generalize e : ([] : List (JVal K)) = l at h
  cases h with
  | none s hs =>
    rw [← List.append_assoc]
    exact .one _ _ _ (blank_append hs hws) ht
  | one => exact absurd e (by simp)
  | more => exact absurd e (by simp)

theorem holds_event [DivisionRing K] {F : TextFmt K} {f : OutFile K} {l : List (JVal K)}
    (h : Holds F.json f l) (e : Event K) :
    (writeEvent F f e).2 = .ok () ∧
      Holds F.json (writeEvent F f e).1 (l ++ [Event.toJson e]) ∧
      (writeEvent F f e).1.indent = f.indent := by
  obtain ⟨h1, h2, h3, s, hs, ht⟩ := h
  have hp := valueText_printed F.json f.indent 2 (Event.toJson e)
  simp only [writeEvent, h1]
  refine ⟨trivial, ?_, ?_⟩
  · cases l with
    | nil =>
      have hc : f.needsComma = false := by simpa using h3
      simp only [hc, Bool.false_eq_true, if_false, OutFile.put, h2, if_true]
      refine ⟨rfl, rfl, by simp, _, elems_first hs blank_nil hp, ?_⟩
      simp [ht]
    | cons v l =>
      have hc : f.needsComma = true := by simpa using h3
      simp only [hc, if_true, OutFile.put, h2]
      refine ⟨h1, rfl, by simp, _, elems_push hs (by simp) (blank_break f.indent 2) hp, ?_⟩
      simp [ht]
  · cases hc : f.needsComma <;> simp [OutFile.put, h2]

theorem holds_flux {F : TextFmt K} {f : OutFile K} {l : List (JVal K)} (h : Holds F.json f l) (x : K) :
    Holds F.json (writeFlux F f x) l ∧ (writeFlux F f x).indent = f.indent := by
  obtain ⟨h1, h2, h3, h4⟩ := h
  simp only [writeFlux, h1, reduceCtorEq, if_false]
  exact ⟨⟨rfl, h2, h3, h4⟩, trivial⟩

theorem rewrite_elems (ops : FloatOps K) (indent : Option Nat) (l l0 : List (JVal K)) (s : Str)
    (h : Elems ops l0 s) :
    Elems ops (l0 ++ l) (s ++ rewriteText ops indent l0.isEmpty l) := by
  induction l generalizing l0 s with
  | nil => simpa [rewriteText] using h
  | cons v l ih =>
    have hb : Blank (breakIfNonneg indent 2) := by
      cases indent with
      | none => exact blank_nil
      | some n => exact blank_newline _
    have hp := valueText_printed ops indent 2 v
    cases l0 with
    | nil =>
      have := ih [v] _ (elems_first h hb hp)
      simpa [rewriteText] using this
    | cons w l0 =>
      have := ih (w :: l0 ++ [v]) _ (elems_push h (by simp) hb hp)
      simpa [rewriteText] using this

/-- What a closed file is read as. -/
theorem holds_close {G : GenOps K γ} {F : TextFmt K} {f : OutFile K} {l : List (JVal K)}
    (h : Holds F.json f l) (hl : ∀ v ∈ l, WF F.json v) {cfg : JVal K} (hc : WF F.json cfg) {g : γ}
    (hx : FloatOk F.json (G.xsec g)) {n : Int} (hn : longMin ≤ n ∧ n ≤ longMax) :
    loadStream F.json (closeFile G F f cfg g n).text =
      .ok (.obj [("events".toList, .arr (reloadList l)),
        ("gen_state".toList, reload (genState G cfg g n))]) [] := by
  obtain ⟨h1, h2, h3, s, hs, ht⟩ := h
  have hp := valueText_printed F.json f.indent 1 (genState G cfg g n)
  have hw := genState_wf hc hx hn
  have hsp : Blank [' '] := by simp [Blank, isSpace]
  have hnl : Blank ['\n'] := by simp [Blank, isSpace]
  have hk1 : jsonEscape "events".toList = "events".toList := by decide
  have hk2 : jsonEscape "gen_state".toList = "gen_state".toList := by decide
  have hm2 : ∀ a b : JVal K, mapSet (mapSet [] "events".toList a) "gen_state".toList b =
      [("events".toList, a), ("gen_state".toList, b)] := by intro a b; rfl
  have key : ∀ (w1 w2 w3 w4 w5 w6 w7 w8 : Str), Blank w1 → Blank w2 → Blank w3 → Blank w4 →
      Blank w5 → Blank w6 → Blank w7 → Blank w8 →
      (closeFile G F f cfg g n).text = '{' :: (w1 ++ '"' :: ("events".toList ++ '"' :: (w2 ++
        ':' :: (w3 ++ '[' :: (s ++ (w4 ++ ']' :: ',' :: (w5 ++ '"' :: ("gen_state".toList ++
        '"' :: (w6 ++ ':' :: (w7 ++ (valueText F.json f.indent 1 (genState G cfg g n) ++
        (w8 ++ '}' :: [])))))))))))) →
      loadStream F.json (closeFile G F f cfg g n).text =
      .ok (.obj [("events".toList, .arr (reloadList l)),
        ("gen_state".toList, reload (genState G cfg g n))]) [] := by
    intro w1 w2 w3 w4 w5 w6 w7 w8 b1 b2 b3 b4 b5 b6 b7 b8 e
    rw [e, load_document F.json hk1 hk2 b1 b2 b3 b4 b5 b6 b7 b8 hs hl hp hw [], hm2]
  cases hi : f.indent with
  | none =>
    refine key [] [] [] [] [] [] [] [] blank_nil blank_nil blank_nil blank_nil blank_nil blank_nil
      blank_nil blank_nil ?_
    simp only [closeFile, h1, OutFile.put, h2, ht, hi, headText, breakIfPos, genStateText, if_true,
      Option.getD_none, Nat.lt_irrefl, if_false, List.cons_append, List.append_assoc,
      List.nil_append]
  | some m =>
    by_cases hm : 0 < m
    · refine key (newline m) [' '] [' '] (newline m) (newline m) [' '] [' '] ['\n']
        (blank_newline _) hsp hsp (blank_newline _) (blank_newline _) hsp hsp hnl ?_
      simp only [closeFile, h1, OutFile.put, h2, ht, hi, headText, breakIfPos, genStateText, hm,
        if_true, Option.getD_some, if_false, List.cons_append, List.append_assoc,
        List.nil_append, Nat.one_mul]
    · refine key (newline m) [' '] [' '] [] [] [] [] []
        (blank_newline _) hsp hsp blank_nil blank_nil blank_nil blank_nil blank_nil ?_
      simp only [closeFile, h1, OutFile.put, h2, ht, hi, headText, breakIfPos, genStateText, hm,
        if_true, Option.getD_some, if_false, List.cons_append, List.append_assoc,
        List.nil_append, Nat.one_mul]

/-! ## The program -/

/-- All events written to a file. -/
def pushEvents [DivisionRing K] (F : TextFmt K) (f : OutFile K) (es : List (Event K)) : OutFile K :=
  es.foldl (fun f e => (writeEvent F f e).1) f

theorem pushEvents_cons [DivisionRing K] (F : TextFmt K) (f : OutFile K) (e : Event K)
    (es : List (Event K)) : pushEvents F f (e :: es) = pushEvents F (writeEvent F f e).1 es := rfl

theorem holds_push [DivisionRing K] {F : TextFmt K} {f : OutFile K} {l : List (JVal K)}
    (h : Holds F.json f l) (es : List (Event K)) :
    Holds F.json (pushEvents F f es) (l ++ es.map Event.toJson) := by
  induction es generalizing f l with
  | nil => simpa [pushEvents] using h
  | cons e es ih =>
    rw [pushEvents_cons]
    simpa using ih (holds_event h e).2.1

theorem put_good {f : OutFile K} (h : f.good = true) (s : Str) :
    f.put s = { f with text := f.text ++ s } := by simp [OutFile.put, h]

theorem put_bad {f : OutFile K} (h : f.good = false) (s : Str) : f.put s = f := by
  simp [OutFile.put, h]

theorem push_ascii [DivisionRing K] {F : TextFmt K} {f : OutFile K} (h : f.format = .ascii)
    (hg : f.good = true) (es : List (Event K)) :
    pushEvents F f es = { f with text := f.text ++ es.flatMap (Event.print F.dbl) } := by
  induction es generalizing f with
  | nil => simp [pushEvents]
  | cons e es ih =>
    have : (writeEvent F f e).1 = { f with text := f.text ++ Event.print F.dbl e } := by
      simp [writeEvent, h, put_good hg]
    rw [pushEvents_cons, this, ih (by exact h) (by exact hg)]
    simp

theorem push_hepevt [DivisionRing K] {F : TextFmt K} {f : OutFile K} (h : f.format = .hepevt)
    (hg : f.good = true) (es : List (Event K)) :
    pushEvents F f es =
      { f with text := f.text ++ es.flatMap (Event.writeHepevt F.dbl 0 f.xsec) } := by
  induction es generalizing f with
  | nil => simp [pushEvents]
  | cons e es ih =>
    have : (writeEvent F f e).1 =
        { f with text := f.text ++ Event.writeHepevt F.dbl 0 f.xsec e } := by
      simp [writeEvent, h, put_good hg]
    rw [pushEvents_cons, this, ih (by exact h) (by exact hg)]
    simp

/-- A file that could not be opened for writing stays as it is. -/
theorem writeEvent_bad [DivisionRing K] {F : TextFmt K} {f : OutFile K} (h : f.good = false)
    (e : Event K) : (writeEvent F f e).1.text = f.text ∧ (writeEvent F f e).1.good = false := by
  cases hf : f.format <;> simp only [writeEvent, hf]
  · exact ⟨trivial, h⟩
  · rw [put_bad h]; exact ⟨rfl, h⟩
  · cases hc : f.needsComma
    · simp only [Bool.false_eq_true, if_false]
      rw [put_bad (by exact h)]; exact ⟨rfl, h⟩
    · simp only [if_true]
      rw [put_bad h, put_bad h]; exact ⟨rfl, h⟩
  · rw [put_bad h]; exact ⟨rfl, h⟩

theorem push_bad [DivisionRing K] {F : TextFmt K} {f : OutFile K} (h : f.good = false)
    (es : List (Event K)) : (pushEvents F f es).text = f.text ∧ (pushEvents F f es).good = false := by
  induction es generalizing f with
  | nil => exact ⟨rfl, h⟩
  | cons e es ih =>
    rw [pushEvents_cons]
    obtain ⟨h1, h2⟩ := writeEvent_bad (F := F) h e
    obtain ⟨h3, h4⟩ := ih h2
    exact ⟨h3.trans h1, h4⟩

theorem writeAll_ok [DivisionRing K] {F : TextFmt K} {e : Event K} {fs fs' : List (OutFile K)}
    (h : writeAll F e fs = (fs', .ok ())) : fs' = fs.map (fun f => (writeEvent F f e).1) := by
  induction fs generalizing fs' with
  | nil => simp [writeAll] at h; simp [h]
  | cons f t ih =>
    rw [writeAll] at h
    rcases hw : writeEvent F f e with ⟨f1, _ | ⟨⟩⟩
    · simp [hw] at h
    · rw [hw] at h
      rcases ht : writeAll F e t with ⟨t1, r⟩
      rw [ht] at h
      simp only [Prod.mk.injEq] at h
      obtain ⟨rfl, rfl⟩ := h
      rw [ih ht]
      simp [hw]

theorem eventLoop_ok [DivisionRing K] {G : GenOps K γ} {F : TextFmt K} {stop : Nat → Bool}
    {num : Int} {n i : Nat} {count : Int} {fs fs' : List (OutFile K)} {g g' : γ} {c : Int}
    (h : eventLoop G F stop num n i count fs g = some (fs', .ok (g', c))) :
    ∃ es, Generates G g es g' ∧ fs' = fs.map (fun f => pushEvents F f es) ∧
      c = count + es.length ∧ es.length ≤ n ∧ (∀ k, k < es.length → stop (i + k) = false) ∧
      (∀ k : Nat, k < es.length → count + k ≤ num) ∧
      (es.length = n ∨ num < c ∨ stop (i + es.length) = true) := by
  induction n generalizing i count fs g with
  | zero =>
    simp only [eventLoop, Option.some.injEq, Prod.mk.injEq, Except.ok.injEq] at h
    obtain ⟨rfl, rfl, rfl⟩ := h
    exact ⟨[], .nil _, by simp [pushEvents], by simp, by simp, by simp, by simp, .inl rfl⟩
  | succ n ih =>
    rw [eventLoop] at h
    by_cases hc : count ≤ num ∧ stop i = false
    · rw [if_pos hc] at h
      rcases he : G.event g with _ | _ | ⟨e, g1⟩
      · simp [he] at h
      · simp [he] at h
      · rw [he] at h
        simp only at h
        rcases hw : writeAll F e fs with ⟨fs1, _ | ⟨⟩⟩
        · simp [hw] at h
        · rw [hw] at h
          simp only at h
          obtain ⟨es, h1, h2, h3, h4, h5, h6, h7⟩ := ih h
          refine ⟨e :: es, .cons _ _ _ _ _ he h1, ?_, ?_, ?_, ?_, ?_, ?_⟩
          · rw [h2, writeAll_ok hw]
            simp [pushEvents_cons]
          · rw [h3]; simp; omega
          · simp; omega
          · intro k hk
            cases k with
            | zero => exact hc.2
            | succ k =>
              have := h5 k (by simpa using hk)
              rwa [show i + (k + 1) = i + 1 + k by omega]
          · intro k hk
            cases k with
            | zero => simpa using hc.1
            | succ k =>
              have := h6 k (by simpa using hk)
              push_cast
              omega
          · rcases h7 with h7 | h7 | h7
            · exact .inl (by simp [h7])
            · exact .inr (.inl h7)
            · refine .inr (.inr ?_)
              rwa [List.length_cons, show i + (es.length + 1) = i + 1 + es.length by omega]
    · rw [if_neg hc] at h
      simp only [Option.some.injEq, Prod.mk.injEq, Except.ok.injEq] at h
      obtain ⟨rfl, rfl, rfl⟩ := h
      refine ⟨[], .nil _, by simp [pushEvents], by simp, by simp, by simp, by simp, ?_⟩
      by_cases h1 : count ≤ num
      · exact .inr (.inr (by simpa [h1] using hc))
      · exact .inr (.inl (by simpa using h1))

theorem resumeAll_some {G : GenOps K γ} {F : TextFmt K} {fs fs' : List (OutFile K)} {r0 : γ × Int}
    {cur : Option (γ × Int)} (h : resumeAll G F fs (some r0) = (fs', .ok cur)) :
    fs' = fs ∧ cur = some r0 ∧ ∀ f ∈ fs, f.mode ≠ .resume := by
  induction fs generalizing fs' with
  | nil => simp [resumeAll] at h; obtain ⟨rfl, rfl⟩ := h; simp
  | cons f t ih =>
    rw [resumeAll] at h
    by_cases hm : f.mode = .resume
    · simp [hm] at h
    · rw [if_neg hm] at h
      rcases ht : resumeAll G F t (some r0) with ⟨t1, r⟩
      rw [ht] at h
      simp only [Prod.mk.injEq] at h
      obtain ⟨rfl, rfl⟩ := h
      obtain ⟨rfl, h2, h3⟩ := ih ht
      exact ⟨rfl, h2, by simpa [hm] using h3⟩

theorem resumeAll_none {G : GenOps K γ} {F : TextFmt K} {fs fs' : List (OutFile K)}
    {cur : Option (γ × Int)} (h : resumeAll G F fs none = (fs', .ok cur)) :
    (cur = none ∧ fs' = fs ∧ ∀ f ∈ fs, f.mode ≠ .resume) ∨
    ∃ r a f f' b, cur = some r ∧ fs = a ++ f :: b ∧ fs' = a ++ f' :: b ∧ f.mode = .resume ∧
      resume G F f = (f', .ok r) ∧ ∀ x ∈ a ++ b, x.mode ≠ .resume := by
  induction fs generalizing fs' with
  | nil => simp [resumeAll] at h; obtain ⟨rfl, rfl⟩ := h; simp
  | cons f t ih =>
    rw [resumeAll] at h
    by_cases hm : f.mode = .resume
    · rw [if_pos hm, if_neg (by simp)] at h
      rcases hr : resume G F f with ⟨f1, _ | r⟩
      · simp [hr] at h
      · rw [hr] at h
        simp only at h
        rcases ht : resumeAll G F t (some r) with ⟨t1, q⟩
        rw [ht] at h
        simp only [Prod.mk.injEq] at h
        obtain ⟨rfl, rfl⟩ := h
        obtain ⟨rfl, h2, h3⟩ := resumeAll_some ht
        exact .inr ⟨r, [], f, f1, t1, h2, rfl, rfl, hm, hr, by simpa using h3⟩
    · rw [if_neg hm] at h
      rcases ht : resumeAll G F t none with ⟨t1, r⟩
      rw [ht] at h
      simp only [Prod.mk.injEq] at h
      obtain ⟨rfl, rfl⟩ := h
      rcases ih ht with ⟨h1, rfl, h3⟩ | ⟨r, a, x, x', b, h1, rfl, rfl, h4, h5, h6⟩
      · exact .inl ⟨h1, rfl, by simpa [hm] using h3⟩
      · exact .inr ⟨r, f :: a, x, x', b, h1, rfl, rfl, h4, h5, by simpa [hm] using h6⟩

/-- A run that ends without an exception. -/
theorem produce_ok [DivisionRing K] {G : GenOps K γ} {F : TextFmt K} {cfg : JVal K} {num : Int}
    {stop : Nat → Bool} {fs fs' : List (OutFile K)} {n : Int}
    (h : produce G F cfg num stop fs = some (fs', .ok n)) :
    ∃ fs1 cur g old es g', resumeAll G F fs none = (fs1, .ok cur) ∧
      startGen G cfg cur = .ok (g, old) ∧ Generates G g es g' ∧
      fs' = fs1.map (fun f => closeFile G F (pushEvents F (writeFlux F f (G.xsec g)) es) cfg g' n) ∧
      n = old + es.length ∧ (∀ k, k < es.length → stop k = false) ∧
      (es ≠ [] → n ≤ num) ∧ (num ≤ n ∨ stop es.length = true) := by
  rw [produce] at h
  rcases hr : resumeAll G F fs none with ⟨fs1, _ | cur⟩
  · simp [hr] at h
  · rw [hr] at h
    simp only at h
    rcases hs : startGen G cfg cur with _ | ⟨g, old⟩
    · simp [hs] at h
    · rw [hs] at h
      simp only at h
      rcases he : eventLoop G F stop num (num - old).toNat 0 (1 + old)
          (fs1.map (fun f => writeFlux F f (G.xsec g))) g with _ | ⟨fs2, _ | ⟨g', c⟩⟩
      · simp [he] at h
      · simp [he] at h
      · rw [he] at h
        simp only [Option.some.injEq, Prod.mk.injEq, Except.ok.injEq] at h
        obtain ⟨rfl, rfl⟩ := h
        obtain ⟨es, h1, h2, h3, h4, h5, h6, h7⟩ := eventLoop_ok he
        refine ⟨fs1, cur, g, old, es, g', rfl, hs, h1, ?_, by omega, ?_, ?_, ?_⟩
        · rw [h2, List.map_map, List.map_map]; rfl
        · intro k hk; simpa using h5 k hk
        · intro hne
          have : 0 < es.length := List.length_pos_iff.2 hne
          have := h6 (es.length - 1) (by omega)
          omega
        · rcases h7 with h7 | h7 | h7
          · left; omega
          · left; omega
          · right; simpa using h7

/-! ## Exceptions -/

theorem writeAll_total [DivisionRing K] {F : TextFmt K} (e : Event K) {fs : List (OutFile K)}
    (h : ∀ f ∈ fs, f.format ≠ .root) :
    writeAll F e fs = (fs.map (fun f => (writeEvent F f e).1), .ok ()) := by
  induction fs with
  | nil => rfl
  | cons f t ih =>
    have hf : writeEvent F f e = ((writeEvent F f e).1, .ok ()) := by
      have := h f (by simp)
      rw [writeEvent]
      cases hf : f.format <;> simp_all
    rw [writeAll, hf]
    simp only [List.map_cons]
    rw [ih (fun f hf => h f (by simp [hf]))]

theorem writeEvent_format [DivisionRing K] (F : TextFmt K) (f : OutFile K) (e : Event K) :
    (writeEvent F f e).1.format = f.format := by
  cases hf : f.format <;> simp only [writeEvent, hf]
  · simp only [OutFile.put]; split <;> exact hf
  · cases f.needsComma <;> simp only [OutFile.put] <;> split_ifs <;> first | rfl | exact hf
  · simp only [OutFile.put]; split <;> exact hf

theorem eventLoop_error [DivisionRing K] {G : GenOps K γ} {F : TextFmt K} {stop : Nat → Bool}
    {num : Int} {n i : Nat} {count : Int} {fs fs' : List (OutFile K)} {g : γ} {x : Exc}
    (hfs : ∀ f ∈ fs, f.format ≠ .root)
    (h : eventLoop G F stop num n i count fs g = some (fs', .error x)) :
    ∃ es g', Generates G g es g' ∧ G.event g' = some (.error x) ∧
      fs' = fs.map (fun f => pushEvents F f es) := by
  induction n generalizing i count fs g with
  | zero => simp [eventLoop] at h
  | succ n ih =>
    rw [eventLoop] at h
    by_cases hc : count ≤ num ∧ stop i = false
    · rw [if_pos hc] at h
      rcases he : G.event g with _ | _ | ⟨e, g1⟩
      · simp [he] at h
      · rw [he] at h
        simp only [Option.some.injEq, Prod.mk.injEq, Except.error.injEq] at h
        obtain ⟨rfl, rfl⟩ := h
        exact ⟨[], g, .nil _, he, by simp [pushEvents]⟩
      · rw [he] at h
        simp only at h
        rw [writeAll_total e hfs] at h
        simp only at h
        obtain ⟨es, g', h1, h2, h3⟩ := ih (by
          simp only [List.mem_map, forall_exists_index, and_imp, forall_apply_eq_imp_iff₂]
          intro f hf
          rw [writeEvent_format]
          exact hfs f hf) h
        refine ⟨e :: es, g', .cons _ _ _ _ _ he h1, h2, ?_⟩
        rw [h3]
        simp [pushEvents_cons]
    · rw [if_neg hc] at h
      simp at h

/-- A file that is not closed cannot be loaded. -/
theorem holds_open {ops : FloatOps K} {f : OutFile K} {l : List (JVal K)} (h : Holds ops f l)
    (hl : ∀ v ∈ l, WF ops v) (hobj : ∀ v ∈ l, ∃ m, v = .obj m) :
    loadStream ops f.text = .exc .marleyError := by
  obtain ⟨h1, h2, h3, s, hs, ht⟩ := h
  have hsp : Blank [' '] := by simp [Blank, isSpace]
  have hk1 : jsonEscape "events".toList = "events".toList := by decide
  have ho := elems_open ops hs hl hobj
  rw [ht]
  cases hi : f.indent with
  | none =>
    have := load_open ops hk1 blank_nil blank_nil blank_nil ho
    simpa only [headText, List.cons_append, List.append_assoc, List.nil_append] using this
  | some m =>
    have := load_open ops hk1 (blank_newline m) hsp hsp ho
    simpa only [headText, List.cons_append, List.append_assoc, List.nil_append] using this

/-! ## Resuming -/

theorem restore_ok {G : GenOps K γ} {doc : JVal K} {g : γ} {n : Int}
    (h : restore G doc = .ok (g, n)) :
    ∃ m gs cfg st g0, doc = .obj m ∧ m.lookup "gen_state".toList = some (.obj gs) ∧
      gs.lookup "config".toList = some cfg ∧
      gs.lookup "generator_state_string".toList = some st ∧
      gs.lookup "event_count".toList = some (.int n) ∧ G.create cfg = .ok g0 ∧
      g = G.setState g0 (toStr st) := by
  unfold restore at h
  generalize "gen_state".toList = k1 at h ⊢
  generalize "config".toList = k2 at h ⊢
  generalize "generator_state_string".toList = k3 at h ⊢
  generalize "seed".toList = k4 at h
  generalize "event_count".toList = k5 at h ⊢
  cases doc with
  | obj m =>
    simp only [hasKey, at?, mapFind_eq_lookup] at h
    rcases h1 : m.lookup k1 with _ | gv
    · simp [h1] at h
    · simp only [h1, Option.isSome_some, Bool.not_true, Bool.false_eq_true, if_false] at h
      cases gv with
      | obj gs =>
        simp only [mapFind_eq_lookup] at h
        rcases h2 : gs.lookup k2 with _ | cfg
        · simp [h2] at h
        rcases h3 : gs.lookup k3 with _ | st
        · simp [h2, h3] at h
        rcases h4 : gs.lookup k4 with _ | sd
        · simp [h2, h3, h4] at h
        rcases h5 : gs.lookup k5 with _ | cnt
        · simp [h2, h3, h4, h5] at h
        simp only [h2, h3, h4, h5, Option.isSome_some, Bool.not_true, Bool.false_eq_true,
          if_false] at h
        cases cnt with
        | int k =>
          simp only [toLong?] at h
          rcases h6 : G.create cfg with _ | g0
          · simp [h6] at h
          · simp only [h6, Except.ok.injEq, Prod.mk.injEq] at h
            obtain ⟨rfl, rfl⟩ := h
            exact ⟨m, gs, cfg, st, g0, rfl, h1, h2, h3, h5, h6, rfl⟩
        | _ => simp [toLong?] at h
      | _ => simp at h
  | _ => simp [hasKey] at h

/-- What `resume` gave. -/
theorem resume_ok {G : GenOps K γ} {F : TextFmt K} {f f' : OutFile K} {r : γ × Int}
    (h : resume G F f = (f', .ok r)) :
    f.mode = .resume ∧ f.format = .json ∧ ∃ m rest, loadStream F.json f.text = .ok (.obj m) rest ∧
      restore G (.obj m) = .ok r ∧ (f.good = true →
        Holds F.json f' (((m.lookup "events".toList).map arrayRange).getD [])) ∧
      f'.indent = f.indent ∧ f'.mode = f.mode ∧ (f.good = false → f'.text = f.text ∧ f'.good = false) := by
  rw [resume] at h
  by_cases hm : f.mode = .resume
  · rw [if_neg (by simpa using hm)] at h
    by_cases hf : f.format = .json
    · rw [if_neg (by simpa using hf)] at h
      rcases hl : loadStream F.json f.text with ⟨doc, rest⟩ | e | _
      · rw [hl] at h
        simp only at h
        rcases hr : restore G doc with e | r'
        · simp [hr] at h
        · rw [hr] at h
          obtain ⟨g0, n0⟩ := r'
          obtain ⟨m, gs, cfg, st, g1, rfl, -⟩ := restore_ok hr
          simp only [Prod.mk.injEq, Except.ok.injEq] at h
          obtain ⟨h1, rfl⟩ := h
          refine ⟨hm, hf, m, rest, rfl, hr, ?_⟩
          have hev : eventsOf (JVal.obj m) = ((m.lookup "events".toList).map arrayRange).getD [] := by
            simp only [eventsOf, at?, mapFind_eq_lookup]
            cases m.lookup "events".toList <;> rfl
          rw [hev] at h1
          generalize ((m.lookup "events".toList).map arrayRange).getD [] = l at h1 ⊢
          subst h1
          refine ⟨fun hg => ?_, ?_, ?_, fun hg => ?_⟩
          · simp only [hg, if_true, OutFile.put, List.nil_append]
            refine ⟨hf, rfl, rfl, ?_⟩
            obtain ⟨ws, hws, e⟩ := startText_eq f.indent
            refine ⟨_, rewrite_elems F.json f.indent l [] ws (.none ws hws), ?_⟩
            simp only [e, List.append_assoc, List.isEmpty_nil]
          · simp only [OutFile.put]; split_ifs <;> rfl
          · simp only [OutFile.put]; split_ifs <;> rfl
          · simp [hg, OutFile.put]
      · simp [hl] at h
      · simp [hl] at h
    · rw [if_pos hf] at h; simp at h
  · rw [if_pos hm] at h; simp at h

theorem loaded_holdable {ops : FloatOps K} {s : Str} {v : JVal K} {r : Str}
    (h : loadStream ops s = .ok v r) : Holdable (fun _ => True) v := by
  unfold loadStream at h
  split at h
  · exact (parse_holdable ops _).1 _ _ _ h
  · simp at h

theorem lookup_holdable {P : K → Prop} {m : List (Str × JVal K)} (h : Holdable P (.obj m)) {k : Str}
    {v : JVal K} (hk : m.lookup k = some v) : Holdable P v := by
  have hm : ∀ q ∈ m, Holdable P q.2 := by
    cases h with
    | obj _ _ h => exact h
  clear h
  induction m with
  | nil => simp at hk
  | cons q m ih =>
    obtain ⟨a, b⟩ := q
    rw [List.lookup_cons] at hk
    split at hk
    · cases hk; exact hm (a, _) (by simp)
    · exact ih hk (fun q hq => hm q (by simp [hq]))

/-- The saved number is a `long`. -/
theorem restore_range {G : GenOps K γ} {ops : FloatOps K} {s : Str} {doc : JVal K} {rest : Str}
    {r : γ × Int} (h1 : loadStream ops s = .ok doc rest) (h2 : restore G doc = .ok r) :
    longMin ≤ r.2 ∧ r.2 ≤ longMax := by
  obtain ⟨g, n⟩ := r
  obtain ⟨m, gs, cfg, st, g0, rfl, a1, -, -, a4, -⟩ := restore_ok h2
  have := lookup_holdable (lookup_holdable (loaded_holdable h1) a1) a4
  cases this with
  | int _ h1 h2 => exact ⟨h1, h2⟩

end Marley.Out
