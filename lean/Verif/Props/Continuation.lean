import Verif.Spec.Continuation
import Verif.Props.RootOutput

/-!
# Properties of productions in several runs (C107)
-/

set_option autoImplicit false

namespace Marley.Props
open Marley Marley.Json Marley.Out Marley.RootOut

variable {K γ : Type}

theorem generates_append {G : GenOps K γ} {a b c : γ} {es es' : List (Event K)} (h : Generates G a es b)
    (h' : Generates G b es' c) : Generates G a (es ++ es') c := by
  induction h with
  | nil g => exact h'
  | cons g g1 g' e es he _ ih => exact .cons _ _ _ _ _ he (ih h')

theorem generates_det {G : GenOps K γ} {a b c : γ} {es es' : List (Event K)} (h : Generates G a es b)
    (h' : Generates G a es' c) (hl : es.length = es'.length) : es = es' ∧ b = c := by
  induction h generalizing es' with
  | nil g =>
    cases h' with
    | nil => exact ⟨rfl, rfl⟩
    | cons => simp at hl
  | cons g g1 g' e es he _ ih =>
    cases h' with
    | nil => simp at hl
    | cons _ g2 _ e2 es2 he2 h2 =>
      rw [he] at he2
      cases he2
      obtain ⟨rfl, rfl⟩ := ih h2 (by simpa using hl)
      exact ⟨rfl, rfl⟩

theorem generates_prefix {G : GenOps K γ} {a b c : γ} {es es' : List (Event K)} (h : Generates G a es b)
    (h' : Generates G a es' c) : es <+: es' ∨ es' <+: es := by
  induction h generalizing es' with
  | nil => exact .inl (List.nil_prefix)
  | cons g g1 g' e es he _ ih =>
    cases h' with
    | nil => exact .inr (List.nil_prefix)
    | cons _ g2 _ e2 es2 he2 h2 =>
      rw [he] at he2
      cases he2
      rcases ih h2 with h | h
      · exact .inl (List.cons_prefix_cons.2 ⟨rfl, h⟩)
      · exact .inr (List.cons_prefix_cons.2 ⟨rfl, h⟩)

theorem generates_alike {G : GenOps K γ} {g0 : γ} {alike : γ → γ → Prop} (hr : Restorable G g0 alike)
    {h h' : γ} {es : List (Event K)} (hg : Generates G h es h') {g : γ} (ha : alike g h) :
    ∃ g', Generates G g es g' ∧ alike g' h' := by
  induction hg generalizing g with
  | nil x => exact ⟨g, .nil g, ha⟩
  | cons x x1 x' e es he _ ih =>
    obtain ⟨g1, h1, h2⟩ := hr.next g x e x1 ha he
    obtain ⟨g', h3, h4⟩ := ih h2
    exact ⟨g', .cons _ _ _ _ _ h1 h3, h4⟩

/-- What the file looks like after a run that ended with the generator `h`. -/
def SavedAs (G : GenOps K γ) (F : TextFmt K) (R : RootIO K) (cfg : JVal K) (k : Kind) (text : Str)
    (es : List (Event K)) (h : γ) : Prop :=
  match k with
  | .json => ∃ f, Holds F.json f (es.map Event.toJson) ∧ text = (closeFile G F f cfg h es.length).text
  | .root => RootHolds G F R text es cfg h

theorem C107_invariant [DivisionRing K] (G : GenOps K γ) (F : TextFmt K) {R : RootIO K} (k : Kind)
    (hR : R.Lawful) (hG : k = .json → ∀ g e g', G.event g = some (.ok (e, g')) → EventText F.json e)
    (hx : k = .json → ∀ g, FloatOk F.json (G.xsec g))
    (hst : k = .json → ∀ g, ∀ c ∈ G.state g, ¬ NeedsEscape c)
    (m : List (Str × JVal K)) (hc : Holdable (FloatOk F.json) (.obj m)) (hk : PlainKeys (.obj m))
    (g0 : γ) (hg0 : G.create (.obj m) = .ok g0) (alike : γ → γ → Prop) (hr : Restorable G g0 alike)
    (text : Str) (hp : Production G F R (.obj m) k text) :
    ∃ es g h, Generates G g0 es g ∧ alike g h ∧ (es.length : Int) ≤ longMax ∧
      SavedAs G F R (.obj m) k text es h := by
  induction hp with
  | first num stop fs fs' n f f' h1 h2 h3 h4 h5 h6 =>
    obtain ⟨fs1, cur, g, old, es, g', p1, p2, p3, p4, p5, p6, p7, p8⟩ := produceFiles_ok h3
    rcases resumeFiles_none p1 with ⟨rfl, rfl, -⟩ | ⟨r, a, q, q1, b, rfl, rfl, rfl, a4, -⟩
    · have hs : g = g0 ∧ old = 0 := by
        simp only [startGen, hg0, Except.ok.injEq, Prod.mk.injEq] at p2
        exact ⟨p2.1.symm, p2.2.symm⟩
      obtain ⟨rfl, rfl⟩ := hs
      obtain ⟨g1, e1, e2⟩ := generates_alike hr p3 hr.start
      have hlen : (es.length : Int) ≤ longMax := by
        by_cases he : es = []
        · rw [he]; show (0 : Int) ≤ longMax; decide
        · have := p7 he; omega
      have hn : n = es.length := by omega
      have hmem : f ∈ fs1 := (List.of_mem_zip h5).1
      have hf' : f' = (anyOps G F R).close (pushFiles (anyOps G F R)
          ((anyOps G F R).writeFlux f (G.xsec g)) es) (.obj m) g' n := by
        rw [p4, List.zip_map_right] at h5
        simp only [List.mem_map, Prod.exists, Prod.map_apply, id_eq, Prod.mk.injEq] at h5
        obtain ⟨x, y, hz, rfl, rfl⟩ := h5
        have : x = y := by
          obtain ⟨i, hi, e⟩ := List.getElem_of_mem hz
          rw [List.getElem_zip] at e
          rw [← (Prod.mk.inj e).1, ← (Prod.mk.inj e).2]
        rw [this]
      refine ⟨es, g1, g', e1, e2, hlen, ?_⟩
      cases k with
      | json =>
        cases f with
        | root f => exact absurd h6 (by simp [IsKind])
        | text f =>
          obtain ⟨r, d, o1, o2⟩ := h2 _ hmem
          have hm : f.mode = .overwrite := by
            rcases opened_facts o1 o2 with ⟨-, -, -, -, h, -⟩ | ⟨h, -⟩
            · rcases h h6 with h | h
              · exact h
              · exact absurd h (h4 _ hmem)
            · exact absurd h6 h
          have hh := holds_push (holds_flux (opened_holds (ops := F.json) o1 o2 h6 hm).1 (G.xsec g)).1 es
          rw [List.nil_append] at hh
          refine ⟨_, hh, ?_⟩
          have e : (anyOps G F R).writeFlux (.text f) (G.xsec g) = .text (writeFlux F f (G.xsec g)) := rfl
          rw [hf', e, push_any_text, hn]
          rfl
      | root =>
        cases f with
        | text f => exact absurd h6 (by simp [IsKind])
        | root f =>
          have ho : OpenedRoot R f ∧ _ := h2 _ hmem
          have e : (anyOps G F R).writeFlux (.root f) (G.xsec g) = .root f := rfl
          have := root_closed hR ho.1 G F es (.obj m) g'
          have hb : before R f = [] := by
            rw [this.2]
            rcases (ho.1.facts hR).2 with ⟨-, h, -⟩ | ⟨h, -⟩
            · exact h
            · exact absurd h (h4 _ hmem)
          rw [hb, List.nil_append] at this
          rw [hf', e, push_any_root]
          exact this.1
    · exact absurd ((any_isResume G F R q).1 a4) (h4 q (by simp))
  | next num stop fs fs' n f f' h1 h2 h3 h4 h5 h6 _ ih =>
    obtain ⟨olds, g1, h, e1, e2, e3, e4⟩ := ih
    obtain ⟨fs1, cur, g, old, es, g', p1, p2, p3, p4, p5, p6, p7, p8⟩ := produceFiles_ok h3
    have hmem : f ∈ fs := (List.of_mem_zip h5).1
    rcases resumeFiles_none p1 with ⟨rfl, rfl, h9⟩ | ⟨r, a, q, q1, b, rfl, rfl, rfl, a4, a5, a6⟩
    · have := h9 f hmem
      rw [Bool.eq_false_iff] at this
      exact absurd ((any_isResume G F R f).2 h4) this
    · simp only [startGen, Except.ok.injEq] at p2
      subst p2
      -- the resumed file is `f`
      have hz : f = q ∧ f' = (anyOps G F R).close (pushFiles (anyOps G F R)
          ((anyOps G F R).writeFlux q1 (G.xsec g)) es) (.obj m) g' n := by
        have hnot : ∀ x ∈ a ++ b, f ≠ x := by
          rintro x hx rfl
          have := a6 f hx
          rw [Bool.eq_false_iff] at this
          exact this ((any_isResume G F R f).2 h4)
        rw [p4, List.zip_map_right] at h5
        simp only [List.mem_map, Prod.exists, Prod.map_apply, id_eq, Prod.mk.injEq] at h5
        obtain ⟨x, y, hz, rfl, rfl⟩ := h5
        rw [List.zip_append (by rfl)] at hz
        rcases List.mem_append.1 hz with hz | hz
        · exact absurd rfl (hnot x (by simp [(List.of_mem_zip hz).1]))
        · rw [List.zip_cons_cons] at hz
          rcases List.mem_cons.1 hz with hz | hz
          · cases hz; exact ⟨rfl, rfl⟩
          · exact absurd rfl (hnot x (by simp [(List.of_mem_zip hz).1]))
      obtain ⟨rfl, hf'⟩ := hz
      -- the generator that was restored, and the file
      have main : g = G.setState g0 (G.state h) ∧ old = olds.length ∧
          SavedAs G F R (.obj m) k (AnyFile.content f') (olds ++ es) g' := by
        have hn : old = olds.length → n = ((olds ++ es).length : Nat) := by
          intro ho; rw [List.length_append]; push_cast; omega
        cases k with
        | json =>
          cases f with
          | root f => exact absurd h6 (by simp [IsKind])
          | text f =>
            obtain ⟨f0, b1, b2⟩ := e4
            have hG := hG rfl
            have hx := hx rfl
            have hst := hst rfl
            have holds : ∀ e ∈ olds, EventText F.json e := generates_texts hG e1
            have hl : ∀ v ∈ olds.map Event.toJson, Holdable (FloatOk F.json) v := by
              simp only [List.mem_map, forall_exists_index, and_imp, forall_apply_eq_imp_iff₂]
              exact fun e he => (event_wf (holds e he)).1
            have hrange : longMin ≤ (olds.length : Int) ∧ (olds.length : Int) ≤ longMax :=
              ⟨(by decide : longMin ≤ 0).trans (by positivity), e3⟩
            obtain ⟨-, -, -, -, -, -, -, -, hres⟩ := C61_state_partial G F f0 _ b1 hl (.obj m) hc hk h
              (hx h) (hst h) olds.length hrange
            obtain ⟨f2, hf2⟩ := hres g0 hg0 f h6 h4 b2
            have hr5 : (anyOps G F R).resume (.text f) = (.text (resume G F f).1, (resume G F f).2) := rfl
            rw [hr5, hf2] at a5
            simp only [Prod.mk.injEq, Except.ok.injEq] at a5
            obtain ⟨rfl, rfl, rfl⟩ := a5
            refine ⟨rfl, rfl, ?_⟩
            obtain ⟨rq, d, o1, o2⟩ := h2 (.text f) (by simp)
            have hgood : f.good = true := by
              rcases opened_facts o1 o2 with ⟨h, -⟩ | ⟨-, h, -⟩ <;> exact h
            have hcont : Contains F.json (fun _ => 0) f.text olds olds.length := by
              have := holds_contains (G := G) (fun _ => (0 : K)) b1 holds hc (hx h) hrange
              rw [← b2] at this
              exact this
            obtain ⟨c1, -, -⟩ := contains_resume hgood hf2 hcont
            have hh := holds_push (holds_flux c1 (G.xsec (G.setState g0 (G.state h)))).1 es
            rw [← List.map_append] at hh
            refine ⟨_, hh, ?_⟩
            have e : (anyOps G F R).writeFlux (.text f2) (G.xsec (G.setState g0 (G.state h))) =
              .text (writeFlux F f2 (G.xsec (G.setState g0 (G.state h)))) := rfl
            rw [hf', e, push_any_text, ← hn rfl]
            rfl
        | root =>
          cases f with
          | text f => exact absurd h6 (by simp [IsKind])
          | root f =>
            have ho : OpenedRoot R f ∧ _ := h2 (.root f) (by simp)
            have hr5 : (anyOps G F R).resume (.root f) = (.root f, resumeRoot G F f) := rfl
            rw [hr5] at a5
            simp only [Prod.mk.injEq] at a5
            obtain ⟨rfl, hres⟩ := a5
            obtain ⟨-, c1, conf, cfg1, st, gc, c2, c3, c4, c5, c6⟩ := resumeRoot_ok hres
            have hdec : R.decode f.text = some ⟨some olds, some (dumpString F.json (-1) (.obj m)),
              some (G.state h), some (natText (G.seed h)), some (G.xsec h)⟩ := e4
            have hdata := (ho.1.facts hR).1
            rw [hdec] at hdata
            have hdata := Option.some.inj hdata
            rw [← hdata] at c2 c4
            cases c2
            cases c4
            have hload := C01_dump_load_partial F.json (-1) m hc hk []
            rw [List.append_nil, c3] at hload
            cases hload
            rw [hg0] at c5
            cases c5
            have hb : before R f = olds := by
              unfold before
              rw [hdec]; rfl
            have hcl := root_closed hR ho.1 G F es (.obj m) g'
            have hlen : old = olds.length := by rw [← hb, hcl.2]; exact c1
            refine ⟨c6, hlen, ?_⟩
            have e : (anyOps G F R).writeFlux (.root f) (G.xsec g) = .root f := rfl
            rw [hf', e, push_any_root]
            rw [hb] at hcl
            exact hcl.1
      obtain ⟨hg, hold, hsave⟩ := main
      have hal : alike g1 g := by rw [hg]; exact hr.restored _ _ e2
      obtain ⟨g2, k1, k2⟩ := generates_alike hr p3 hal
      refine ⟨olds ++ es, g2, g', generates_append e1 k1, k2, ?_, hsave⟩
      by_cases he : es = []
      · rw [he, List.append_nil]; exact e3
      · have := p7 he
        rw [List.length_append]; push_cast; omega

/-- **C107**.  However a production is divided into runs (interrupted or not, each with its
own number of events and other output files, all with the same configuration), the JSON or
ROOT file that is continued contains exactly the first events of the sequence that the
generator made from the configuration creates without any interruption: none is missing,
none is repeated, the order is the same.

Partial: the runs end without an exception (see `C107_crash_violated`) and use the same
configuration (see `C107_config_violated`); the keys of the configuration need no escaping, and
the doubles in JSON texts survive (C01, C04); a restored generator behaves as the saved one
(C16). -/
theorem C107_continuation_partial [DivisionRing K] (G : GenOps K γ) (F : TextFmt K) (ofLong : Int → K)
    {R : RootIO K} (hR : R.Lawful) (k : Kind)
    (hG : k = .json → ∀ g e g', G.event g = some (.ok (e, g')) → EventText F.json e)
    (hx : k = .json → ∀ g, FloatOk F.json (G.xsec g))
    (hst : k = .json → ∀ g, ∀ c ∈ G.state g, ¬ NeedsEscape c)
    (m : List (Str × JVal K)) (hc : Holdable (FloatOk F.json) (.obj m)) (hk : PlainKeys (.obj m))
    (g0 : γ) (hg0 : G.create (.obj m) = .ok g0) (alike : γ → γ → Prop) (hr : Restorable G g0 alike)
    (text : Str) (hp : Production G F R (.obj m) k text) :
    ∃ es g, Generates G g0 es g ∧ HoldsEvents F ofLong R k text es := by
  obtain ⟨es, g, h, h1, -, h3, h4⟩ := C107_invariant G F k hR hG hx hst m hc hk g0 hg0 alike hr text hp
  refine ⟨es, g, h1, ?_⟩
  cases k with
  | json =>
    obtain ⟨f, h5, h6⟩ := h4
    have := holds_contains (G := G) ofLong h5 (generates_texts (hG rfl) h1) hc (hx rfl h)
      ⟨(by decide : longMin ≤ 0).trans (by positivity : (0 : Int) ≤ es.length), h3⟩
    rw [← h6] at this
    exact this
  | root => exact ⟨_, h4, rfl⟩

/-- **C107**, compared: two productions with the same configuration, divided into runs in
different ways and stored in the same or in different formats, contain the same events as far as
both go. -/
theorem C107_same_partial [DivisionRing K] (G : GenOps K γ) (F : TextFmt K) (ofLong : Int → K)
    {R : RootIO K} (hR : R.Lawful) (k k' : Kind)
    (hG : k = .json ∨ k' = .json → ∀ g e g', G.event g = some (.ok (e, g')) → EventText F.json e)
    (hx : k = .json ∨ k' = .json → ∀ g, FloatOk F.json (G.xsec g))
    (hst : k = .json ∨ k' = .json → ∀ g, ∀ c ∈ G.state g, ¬ NeedsEscape c)
    (m : List (Str × JVal K)) (hc : Holdable (FloatOk F.json) (.obj m)) (hk : PlainKeys (.obj m))
    (g0 : γ) (hg0 : G.create (.obj m) = .ok g0) (alike : γ → γ → Prop) (hr : Restorable G g0 alike)
    (text text' : Str) (hp : Production G F R (.obj m) k text)
    (hp' : Production G F R (.obj m) k' text') :
    ∃ es es', HoldsEvents F ofLong R k text es ∧ HoldsEvents F ofLong R k' text' es' ∧
      (es <+: es' ∨ es' <+: es) := by
  obtain ⟨es, g, h1, h2⟩ := C107_continuation_partial G F ofLong hR k (fun h => hG (.inl h)) (fun h => hx (.inl h))
    (fun h => hst (.inl h)) m hc hk g0 hg0 alike hr text hp
  obtain ⟨es', g', h1', h2'⟩ :=
    C107_continuation_partial G F ofLong hR k' (fun h => hG (.inr h)) (fun h => hx (.inr h))
      (fun h => hst (.inr h)) m hc hk g0 hg0 alike hr text' hp'
  refine ⟨es, es', h2, h2', ?_⟩
  exact generates_prefix h1 h1'

/-! ## Concrete productions -/

attribute [local irreducible] dumpString load

theorem counter_restorable : Restorable counter (0 : Nat) Eq where
  start := rfl
  next := by rintro g _ e h1 rfl he; exact ⟨h1, he, rfl⟩
  restored := by
    rintro g _ rfl
    show g = (List.replicate g 'x').length
    rw [List.length_replicate]

theorem empty_load : load exText.json (dumpString exText.json (-1) (.obj [])) = some (.ok (.obj [])) := by
  have := C01_dump_load_partial exText.json (-1) [] empty_config (.obj [] (by simp) (by simp)) []
  rwa [List.append_nil] at this

theorem resumeRoot_eq {G : GenOps K γ} {F : TextFmt K} {f : RootFile K} {conf st : Str} {cfg : JVal K} {g : γ}
    (hm : f.mode = .resume) (hc : f.data.config = some conf) (hl : load F.json conf = some (.ok cfg))
    (hs : f.data.state = some st) (hg : G.create cfg = .ok g) :
    resumeRoot G F f = .ok (G.setState g st, f.mem.length) := by
  unfold resumeRoot
  rw [if_neg (by simp [hm])]
  simp only [hc, hl, hs, hg]

/-- A run that resumes one ROOT file. -/
theorem produce_resumed [DivisionRing K] {G : GenOps K γ} {F : TextFmt K} {R : RootIO K} {f : RootFile K}
    {g : γ} {old : Int} (hm : f.mode = .resume) (hr : resumeRoot G F f = .ok (g, old)) (cfg : JVal K)
    (num : Int) (stop : Nat → Bool) :
    produceFiles (anyOps G F R) G cfg num stop [.root f] =
      match loopFiles (anyOps G F R) G stop num (num - old).toNat 0 (1 + old) [.root f] g with
      | none => none
      | some (fs, .error e) => some (fs, .error e)
      | some (fs, .ok (g, count)) =>
        some (fs.map (fun f => (anyOps G F R).close f cfg g (count - 1)), .ok (count - 1)) := by
  have h1 : resumeFiles (anyOps G F R) [.root f] none = ([.root f], .ok (some (g, old))) := by
    have h2 : (anyOps G F R).resume (.root f) = (.root f, .ok (g, old)) := by
      rw [← hr]; rfl
    rw [resumeFiles, if_pos ((any_isResume G F R (.root f)).2 hm), if_neg (by simp), h2]
    rfl
  unfold produceFiles
  rw [h1]
  simp only [startGen]
  have h2 : [AnyFile.root f].map (fun f => (anyOps G F R).writeFlux f (G.xsec g)) = [.root f] := rfl
  rw [h2]
  rcases loopFiles (anyOps G F R) G stop num (num - old).toNat 0 (1 + old) [AnyFile.root f] g with
    _ | ⟨fs, e | ⟨g, c⟩⟩ <;> rfl

theorem exHolds_resume (es : List (Event ℚ)) (g : Nat) :
    resumeRoot counter exText (exAgain (exHolds es g)) = .ok (g, es.length) := by
  have := resumeRoot_eq (G := counter) (F := exText) (f := exAgain (exHolds es g)) rfl rfl empty_load rfl rfl
  rw [this]
  show Except.ok ((List.replicate g 'x').length, _) = _
  rw [List.length_replicate]
  rfl

/-- Three events of the counter. -/
def threeEvents : List (Event ℚ) := twoEvents ++ [{ sampleEvent with twoJ := 2 * ((2 : Nat) % 2) }]

theorem exSecond (saves : Bool) : ∃ r, produceFiles (anyOps counter exText (exRoot saves)) counter (.obj []) 3
    (fun _ => false) [.root (exAgain (exHolds twoEvents 2))] = some ([.root r], .ok 3) ∧
      r.text = rootText (exHolds threeEvents 3) := by
  rw [produce_resumed rfl (exHolds_resume twoEvents 2)]
  cases saves <;> exact ⟨_, rfl, rfl⟩

/-- A production in two runs that meets the hypotheses of C107. -/
theorem exProduction (saves : Bool) : Production counter exText (exRoot saves) (.obj []) .root
    (rootText (exHolds threeEvents 3)) := by
  obtain ⟨r1, h1, -, h3⟩ := exRun saves
  obtain ⟨r2, k1, k2⟩ := exSecond saves
  have first : Production counter exText (exRoot saves) (.obj []) .root (AnyFile.content (.root r1)) := by
    refine .first 2 (fun _ => false) [.root exNew] [.root r1] 2 (.root exNew) (.root r1) (by decide)
      (exNew_any saves) h1 ?_ (by simp) trivial
    intro f hf
    rw [List.mem_singleton] at hf
    subst hf
    intro h
    have h' : Mode.overwrite = Mode.resume := h
    cases h'
  have e1 : AnyFile.content (.root r1) = AnyFile.content (.root (exAgain (exHolds twoEvents 2))) := h3
  have e2 : AnyFile.content (.root r2) = rootText (exHolds threeEvents 3) := k2
  rw [e1] at first
  rw [← e2]
  refine .next 3 (fun _ => false) [.root (exAgain (exHolds twoEvents 2))] [.root r2] 3
    (.root (exAgain (exHolds twoEvents 2))) (.root r2) (by decide) ?_ k1 rfl (by simp) trivial first
  intro f hf
  rw [List.mem_singleton] at hf
  subst hf
  exact ⟨⟨_, _, congrArg Prod.snd (exAgain_opened saves _ twoEvents rfl)⟩, by
    show ((2 : Nat) : Int) ≤ longMax; decide⟩

example (saves : Bool) : ∃ es g, Generates counter (0 : Nat) es g ∧
    HoldsEvents exText (fun n => (n : ℚ)) (exRoot saves) .root (rootText (exHolds threeEvents 3)) es :=
  C107_continuation_partial counter exText _ (exRoot_lawful saves) .root (fun _ => counter_texts)
    (fun _ _ => codedFloats_ok _) (fun _ => by simp [counter, NeedsEscape]) [] empty_config
    (.obj [] (by simp) (by simp)) 0 rfl Eq counter_restorable _ (exProduction saves)

/-- A JSON file of one run. -/
example (saves : Bool) : ∃ text, Production counter exText (exRoot saves) (.obj []) .json text := by
  obtain ⟨fs', n, h⟩ : ∃ fs' n, produceFiles (anyOps counter exText (exRoot saves)) counter (.obj []) 2
      (fun _ => false) [.text (exFresh none)] = some (fs', .ok n) := ⟨_, _, rfl⟩
  obtain ⟨-, -, -, -, -, -, -, -, -, hz, -⟩ := produceFiles_ok h
  have hl : 0 < fs'.length := by
    obtain ⟨fs1, cur, g, old, es, g', p1, p2, p3, p4, -⟩ := produceFiles_ok h
    have := (resumeFiles_each (anyOps counter exText (exRoot saves)) [.text (exFresh none)] none).length_eq
    rw [p1] at this
    rw [p4, List.length_map, ← this]
    simp
  obtain ⟨f', t, rfl⟩ := List.exists_cons_of_length_pos hl
  refine ⟨_, .first 2 (fun _ => false) [.text (exFresh none)] (f' :: t) n (.text (exFresh none)) f' (by decide)
    ?_ h ?_ (by simp) rfl⟩
  · intro f hf
    rw [List.mem_singleton] at hf
    subst hf
    exact ⟨_, _, exFresh_opened none, rfl⟩
  · intro f hf
    rw [List.mem_singleton] at hf
    subst hf
    intro h
    have h' : Mode.overwrite = Mode.resume := h
    cases h'

/-! ## What is not guaranteed -/

/-- A generator that makes different events from an empty and from another configuration. -/
def fickle : GenOps ℚ (Nat × Bool) where
  create cfg := .ok (0, match cfg with | .obj [] => false | _ => true)
  setState g s := (s.length, g.2)
  state g := List.replicate g.1 'x'
  seed _ := 7
  xsec _ := 3 / 2
  event g := some (.ok ({ sampleEvent with twoJ := if g.2 then 2 else 0 }, g.1 + 1, g.2))

/-- Another configuration. -/
def otherConfig : JVal ℚ := .obj [(['a'], .null)]

theorem other_load : load exText.json (dumpString exText.json (-1) otherConfig) = some (.ok otherConfig) := by
  have := C01_dump_load_partial exText.json (-1) [(['a'], .null)]
    (.obj _ (List.pairwise_singleton _ _) (by simp only [List.mem_singleton, forall_eq]; exact .null))
    (.obj _ (by simp [NeedsEscape]) (by simp only [List.mem_singleton, forall_eq]; exact .null)) []
  rwa [List.append_nil] at this

/-- The events of that generator for the two configurations. -/
def fickleEvent (other : Bool) : Event ℚ := { sampleEvent with twoJ := if other then 2 else 0 }

/-- What the file holds after a run with that generator. -/
noncomputable def fickleHolds (es : List (Event ℚ)) (cfg : JVal ℚ) (n : Nat) : RootData ℚ :=
  ⟨some es, some (dumpString exText.json (-1) cfg), some (List.replicate n 'x'), some (natText 7), some (3 / 2)⟩

theorem fickle_generates {a b : Bool} {n n' : Nat} {es : List (Event ℚ)}
    (h : Generates fickle (n, a) es (n', b)) : ∀ e ∈ es, e = fickleEvent a := by
  generalize hx : (n, a) = x at h
  generalize hy : (n', b) = y at h
  induction h generalizing n with
  | nil => simp
  | cons g g1 g' e es he _ ih =>
    subst hx
    have he' : some (Except.ok (fickleEvent a, n + 1, a)) = some (Except.ok (ε := Exc) (e, g1)) := he
    simp only [Option.some.injEq, Except.ok.injEq, Prod.mk.injEq] at he'
    obtain ⟨rfl, rfl⟩ := he'
    intro e he
    rcases List.mem_cons.1 he with h | h
    · exact h
    · exact ih rfl hy e h

/-- **C107 is violated** if the configuration changes.  A file is begun with an empty
configuration and resumed twice with another one.  The first resumed run goes on with the
generator of the configuration saved in the file, as it should, but saves the other
configuration in its place; so the second resumed run, although started in the same way,
uses the other generator, and the file does not contain the first events of either. -/
theorem C107_config_violated : ∃ r1 r2 r3 : RootFile ℚ,
    produceFiles (anyOps fickle exText (exRoot false)) fickle (.obj []) 1 (fun _ => false) [.root exNew] =
      some ([.root r1], .ok 1) ∧
    openRoot (exRoot false) (rootRequest "resume") ⟨some r1.text, true, []⟩ = (some r1.text, .ok (exAgain r1.data)) ∧
    produceFiles (anyOps fickle exText (exRoot false)) fickle otherConfig 2 (fun _ => false)
      [.root (exAgain r1.data)] = some ([.root r2], .ok 2) ∧
    openRoot (exRoot false) (rootRequest "resume") ⟨some r2.text, true, []⟩ = (some r2.text, .ok (exAgain r2.data)) ∧
    produceFiles (anyOps fickle exText (exRoot false)) fickle otherConfig 3 (fun _ => false)
      [.root (exAgain r2.data)] = some ([.root r3], .ok 3) ∧
    ∃ data es, (exRoot false).decode r3.text = some data ∧ data.tree = some es ∧
      es = [fickleEvent false, fickleEvent false, fickleEvent true] ∧
      ∀ cfg g0 g, fickle.create cfg = .ok g0 → ¬ Generates fickle g0 es g := by
  obtain ⟨r1, h1, d1, t1⟩ : ∃ r1 : RootFile ℚ,
      produceFiles (anyOps fickle exText (exRoot false)) fickle (.obj []) 1 (fun _ => false) [.root exNew] =
        some ([.root r1], .ok 1) ∧ r1.data = fickleHolds [fickleEvent false] (.obj []) 1 ∧
        r1.text = rootText r1.data := ⟨_, rfl, rfl, rfl⟩
  have q1 : resumeRoot fickle exText (exAgain (fickleHolds [fickleEvent false] (.obj []) 1)) =
      .ok ((1, false), 1) :=
    (resumeRoot_eq (G := fickle) (F := exText)
      (f := exAgain (fickleHolds [fickleEvent false] (.obj []) 1)) rfl rfl empty_load rfl rfl).trans rfl
  obtain ⟨r2, h2, d2, t2⟩ : ∃ r2 : RootFile ℚ,
      produceFiles (anyOps fickle exText (exRoot false)) fickle otherConfig 2 (fun _ => false)
        [.root (exAgain r1.data)] = some ([.root r2], .ok 2) ∧
        r2.data = fickleHolds [fickleEvent false, fickleEvent false] otherConfig 2 ∧
        r2.text = rootText r2.data := by
    rw [d1, produce_resumed rfl q1]
    exact ⟨_, rfl, rfl, rfl⟩
  have q2 : resumeRoot fickle exText (exAgain (fickleHolds [fickleEvent false, fickleEvent false] otherConfig 2)) =
      .ok ((2, true), 2) :=
    (resumeRoot_eq (G := fickle) (F := exText)
      (f := exAgain (fickleHolds [fickleEvent false, fickleEvent false] otherConfig 2)) rfl rfl other_load rfl
      rfl).trans rfl
  obtain ⟨r3, h3, d3, t3⟩ : ∃ r3 : RootFile ℚ,
      produceFiles (anyOps fickle exText (exRoot false)) fickle otherConfig 3 (fun _ => false)
        [.root (exAgain r2.data)] = some ([.root r3], .ok 3) ∧
        r3.data = fickleHolds [fickleEvent false, fickleEvent false, fickleEvent true] otherConfig 3 ∧
        r3.text = rootText r3.data := by
    rw [d2, produce_resumed rfl q2]
    exact ⟨_, rfl, rfl, rfl⟩
  refine ⟨r1, r2, r3, h1, ?_, h2, ?_, h3, r3.data, _, ?_, congrArg RootData.tree d3, rfl, ?_⟩
  · rw [t1]; exact exAgain_opened false r1.data _ (congrArg RootData.tree d1)
  · rw [t2]; exact exAgain_opened false r2.data _ (congrArg RootData.tree d2)
  · rw [t3]; exact (exRoot_lawful false).decode_encode _
  · rintro cfg ⟨n, a⟩ ⟨n', b⟩ - hgen
    have e1 := fickle_generates hgen (fickleEvent false) (by simp)
    have e2 := fickle_generates hgen (fickleEvent true) (by simp)
    have : (fickleEvent false).twoJ = (fickleEvent true).twoJ := by rw [e1, ← e2]
    cases this

/-- A file that holds these events of `tired` and the state of the generator after `n` events. -/
theorem tired_resume (es : List (Event ℚ)) (n : Nat) :
    resumeRoot tired exText (exAgain (exHolds es n)) = .ok (n, es.length) := by
  have := resumeRoot_eq (G := tired) (F := exText) (f := exAgain (exHolds es n)) rfl rfl empty_load rfl rfl
  rw [this]
  show Except.ok ((List.replicate n 'x').length, _) = _
  rw [List.length_replicate]
  rfl

/-- **C107 is violated** after an exception.  ROOT has saved the event tree by itself, but the
state of the generator in the file is the one at the end of the run before; resuming
generates the same event again. -/
theorem C107_crash_violated : ∃ (r1 r2 r3 : RootFile ℚ) (a b : Event ℚ), a ≠ b ∧
    produceFiles (anyOps tired exText (exRoot true)) tired (.obj []) 1 (fun _ => false) [.root exNew] =
      some ([.root r1], .ok 1) ∧
    openRoot (exRoot true) (rootRequest "resume") ⟨some r1.text, true, []⟩ = (some r1.text, .ok (exAgain r1.data)) ∧
    produceFiles (anyOps tired exText (exRoot true)) tired (.obj []) 5 (fun _ => false)
      [.root (exAgain r1.data)] = some ([.root r2], .error .marleyError) ∧
    openRoot (exRoot true) (rootRequest "resume") ⟨some r2.text, true, []⟩ = (some r2.text, .ok (exAgain r2.data)) ∧
    produceFiles (anyOps tired exText (exRoot true)) tired (.obj []) 3 (fun _ => false)
      [.root (exAgain r2.data)] = some ([.root r3], .ok 3) ∧
    ∃ data, (exRoot true).decode r3.text = some data ∧ data.tree = some [a, b, b] := by
  obtain ⟨r1, h1, d1, t1⟩ : ∃ r1 : RootFile ℚ,
      produceFiles (anyOps tired exText (exRoot true)) tired (.obj []) 1 (fun _ => false) [.root exNew] =
        some ([.root r1], .ok 1) ∧ r1.data = exHolds [{ sampleEvent with twoJ := 2 * ((0 : Nat) % 2) }] 1 ∧
        r1.text = rootText r1.data := ⟨_, rfl, rfl, rfl⟩
  obtain ⟨r2, h2, d2, t2⟩ : ∃ r2 : RootFile ℚ,
      produceFiles (anyOps tired exText (exRoot true)) tired (.obj []) 5 (fun _ => false)
        [.root (exAgain r1.data)] = some ([.root r2], .error .marleyError) ∧
        r2.data = exHolds twoEvents 1 ∧ r2.text = rootText r2.data := by
    rw [d1, produce_resumed rfl (tired_resume _ 1)]
    exact ⟨_, rfl, rfl, rfl⟩
  obtain ⟨r3, h3, d3, t3⟩ : ∃ r3 : RootFile ℚ,
      produceFiles (anyOps tired exText (exRoot true)) tired (.obj []) 3 (fun _ => false)
        [.root (exAgain r2.data)] = some ([.root r3], .ok 3) ∧
        r3.data = exHolds (twoEvents ++ [{ sampleEvent with twoJ := 2 * ((1 : Nat) % 2) }]) 2 ∧
        r3.text = rootText r3.data := by
    rw [d2, produce_resumed rfl (tired_resume _ 1)]
    exact ⟨_, rfl, rfl, rfl⟩
  refine ⟨r1, r2, r3, { sampleEvent with twoJ := 2 * ((0 : Nat) % 2) },
    { sampleEvent with twoJ := 2 * ((1 : Nat) % 2) }, ?_, h1, ?_, h2, ?_, h3, r3.data, ?_,
    congrArg RootData.tree d3⟩
  · intro h
    have := congrArg Event.twoJ h
    cases this
  · rw [t1]; exact exAgain_opened true r1.data _ (congrArg RootData.tree d1)
  · rw [t2]; exact exAgain_opened true r2.data _ (congrArg RootData.tree d2)
  · rw [t3]; exact (exRoot_lawful true).decode_encode _

end Marley.Props
