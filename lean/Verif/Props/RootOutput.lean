import Verif.Lemmas.RootOutput
import Verif.Spec.RootOutput
import Verif.Props.EventLoop
import Verif.Props.EventReader
import Mathlib.Data.Rat.Encodable
import Mathlib.Logic.Equiv.List
import Mathlib.Data.Countable.Basic

/-!
# Properties of ROOT output files (C106)
-/

set_option autoImplicit false

namespace Marley.Props
open Marley Marley.Json Marley.Out Marley.RootOut Marley.Rdr

variable {K γ : Type}

/-! ## Opening -/

/-- **C106** (opening).  The mode `overwrite` creates an empty file, if the user agrees to lose
what is there; otherwise, and in the mode `resume`, the file is continued: it must exist, be
writable, be a ROOT file and contain an event tree.  Everything else leads to
`marley::Error` and leaves the file as it is. -/
theorem C106_open (R : RootIO K) (r : Request) (d : Disk) (hf : r.format = "root".toList) :
    (r.mode = "overwrite".toList → Agreed r d →
      (d.writable = true → openRoot R r d =
        (some (R.encode .empty), .ok ⟨r.name, .overwrite, R.encode .empty, .empty, []⟩)) ∧
      (d.writable = false → openRoot R r d = (d.existing, .error .marleyError))) ∧
    ((r.mode = "overwrite".toList ∧ ¬ Agreed r d) ∨ r.mode = "resume".toList →
      (∀ text data es, d.existing = some text → d.writable = true → R.decode text = some data →
        data.tree = some es → openRoot R r d = (some text, .ok ⟨r.name, .resume, text, data, es⟩)) ∧
      ((¬ ∃ text data es, d.existing = some text ∧ d.writable = true ∧ R.decode text = some data ∧
        data.tree = some es) → openRoot R r d = (d.existing, .error .marleyError))) ∧
    (r.mode ≠ "overwrite".toList → r.mode ≠ "resume".toList →
      openRoot R r d = (d.existing, .error .marleyError)) := by
  have hag : Agreed r d ↔ ¬ (d.existing.isSome ∧ r.force = false ∧ promptYesNo d.input = false) := by
    unfold Agreed
    rw [← promptYesNo_iff]
    cases d.existing <;> cases r.force <;> cases promptYesNo d.input <;> simp
  have e1 : formatOf r.format = .ok .root := by rw [hf]; rfl
  have hne : "resume".toList ≠ "overwrite".toList := by decide
  have hna : "append".toList ≠ "overwrite".toList := by decide
  have hno : ¬ (Format.root = .hepevt ∨ Format.root = .ascii) := by decide
  have hra : "resume".toList ≠ "append".toList := by decide
  have e2 : modeOf .root "overwrite".toList = .ok .overwrite := rfl
  have e3 : modeOf .root "resume".toList = .ok .resume := rfl
  refine ⟨fun hm ha => ?_, fun hm => ?_, fun h1 h2 => ?_⟩
  · unfold openRoot
    simp only [e1, hm, e2]
    rw [if_pos ⟨trivial, hag.1 ha⟩]
    constructor
    · intro hw; rw [if_pos hw]
    · intro hw; rw [if_neg (by simp [hw])]
  · have key : openRoot R r d = match d.existing with
        | none => (none, .error .marleyError)
        | some text =>
          if d.writable = false then (some text, .error .marleyError)
          else
            match R.decode text with
            | none => (some text, .error .marleyError)
            | some data =>
              match data.tree with
              | none => (some text, .error .marleyError)
              | some es => (some text, .ok ⟨r.name, .resume, text, data, es⟩) := by
      unfold openRoot
      rcases hm with ⟨hm, ha⟩ | hm
      · simp only [e1, hm, e2]
        rw [if_neg (fun h => ha (hag.2 h.2)), if_neg (by simp)]
        cases d.existing <;> rfl
      · simp only [e1, hm, e3]
        rw [if_neg (by simp), if_neg (by simp)]
        cases d.existing <;> rfl
    rw [key]
    constructor
    · intro text data es a1 a2 a3 a4
      simp only [a1, a2, a3, a4]
      rfl
    · intro hn
      cases hd : d.existing with
      | none => rfl
      | some text =>
        cases hw : d.writable with
        | false => rfl
        | true =>
          cases hdc : R.decode text with
          | none => simp only [hdc]; rfl
          | some data =>
            cases ht : data.tree with
            | none => simp only [hdc, ht]; rfl
            | some es => exact absurd ⟨text, data, es, hd, hw, hdc, ht⟩ hn
  · have e4 : modeOf .root r.mode = .error .marleyError := by
      unfold modeOf
      rw [if_neg h1, if_neg hno, if_neg h2]
      split <;> rfl
    unfold openRoot
    simp only [e1, e4]

/-! ## A run -/

theorem _root_.Marley.RootOut.OpenedRoot.facts {R : RootIO K} (hR : R.Lawful) {f : RootFile K} (h : OpenedRoot R f) :
    R.decode f.text = some f.data ∧
      ((f.mode = .overwrite ∧ f.mem = [] ∧ f.data = .empty) ∨
        (f.mode = .resume ∧ f.data.tree = some f.mem)) := by
  obtain ⟨r, d, h⟩ := h
  unfold openRoot at h
  split at h
  · cases h
  · split at h
    · cases h
    · split at h
      · split at h
        · cases h
          exact ⟨hR.decode_encode _, .inl ⟨rfl, rfl, rfl⟩⟩
        · cases h
      · split at h
        · cases h
        · split at h
          · cases h
          · split at h
            · cases h
            · split at h
              · cases h
              · split at h
                · cases h
                · next data hdec _ _ ht =>
                  cases h
                  exact ⟨hdec, .inr ⟨rfl, ht⟩⟩

/-- Several events written to a ROOT file. -/
def pushRoot (R : RootIO K) (f : RootFile K) (es : List (Event K)) : RootFile K :=
  es.foldl (writeRoot R) f

theorem pushRoot_facts {R : RootIO K} (hR : R.Lawful) (f : RootFile K) (h : R.decode f.text = some f.data)
    (es : List (Event K)) :
    (pushRoot R f es).mem = f.mem ++ es ∧ (pushRoot R f es).mode = f.mode ∧
      R.decode (pushRoot R f es).text = some (pushRoot R f es).data ∧
      ∃ t, (pushRoot R f es).data = { f.data with tree := t } ∧
        (t = f.data.tree ∨ ∃ k, k ≤ es.length ∧ t = some (f.mem ++ es.take k)) := by
  induction es generalizing f with
  | nil => exact ⟨by simp [pushRoot], rfl, h, f.data.tree, rfl, .inl rfl⟩
  | cons e es ih =>
    have hp : pushRoot R f (e :: es) = pushRoot R (writeRoot R f e) es := rfl
    rw [hp]
    have hw : (writeRoot R f e).mem = f.mem ++ [e] ∧ (writeRoot R f e).mode = f.mode ∧
        R.decode (writeRoot R f e).text = some (writeRoot R f e).data ∧
        ((writeRoot R f e).data = f.data ∨
          (writeRoot R f e).data = { f.data with tree := some (f.mem ++ [e]) }) := by
      unfold writeRoot
      dsimp only
      split
      · exact ⟨rfl, rfl, hR.decode_encode _, .inr rfl⟩
      · exact ⟨rfl, rfl, h, .inl rfl⟩
    obtain ⟨w1, w2, w3, w4⟩ := hw
    obtain ⟨i1, i2, i3, t, i4, i5⟩ := ih (writeRoot R f e) w3
    refine ⟨by rw [i1, w1]; simp, by rw [i2, w2], i3, t, ?_, ?_⟩
    · rw [i4]; rcases w4 with w4 | w4 <;> rw [w4]
    · rcases i5 with i5 | ⟨k, hk, i5⟩
      · rcases w4 with w4 | w4
        · left; rw [i5, w4]
        · right; exact ⟨1, by simp, by rw [i5, w4]; simp⟩
      · right
        exact ⟨k + 1, by simpa using hk, by rw [i5, w1]; simp⟩

theorem root_closed {R : RootIO K} (hR : R.Lawful) {f : RootFile K} (h : OpenedRoot R f)
    (G : GenOps K γ) (F : TextFmt K) (es : List (Event K)) (cfg : JVal K) (g : γ) :
    RootHolds G F R (closeRoot G F R (pushRoot R f es) cfg g).text (before R f ++ es) cfg g ∧
      before R f = f.mem := by
  obtain ⟨h1, h2⟩ := h.facts hR
  obtain ⟨p1, p2, p3, t, p4, p5⟩ := pushRoot_facts hR f h1 es
  have hb : before R f = f.mem := by
    unfold before
    rw [h1]
    rcases h2 with ⟨-, e1, e2⟩ | ⟨-, e1⟩
    · rw [e2, e1]; rfl
    · simp [e1]
  refine ⟨?_, hb⟩
  unfold RootHolds closeRoot RootFile.store
  dsimp only
  rw [hR.decode_encode, p1, hb]

theorem push_any_text [DivisionRing K] (G : GenOps K γ) (F : TextFmt K) (R : RootIO K) (f : OutFile K)
    (es : List (Event K)) :
    pushFiles (anyOps G F R) (.text f) es = .text (pushEvents F f es) := by
  induction es generalizing f with
  | nil => rfl
  | cons e es ih => rw [pushFiles_cons, pushEvents_cons]; exact ih _

theorem push_any_root [DivisionRing K] (G : GenOps K γ) (F : TextFmt K) (R : RootIO K) (f : RootFile K)
    (es : List (Event K)) :
    pushFiles (anyOps G F R) (.root f) es = .root (pushRoot R f es) := by
  induction es generalizing f with
  | nil => rfl
  | cons e es ih => rw [pushFiles_cons]; exact ih _

theorem any_isResume [DivisionRing K] (G : GenOps K γ) (F : TextFmt K) (R : RootIO K) (f : AnyFile K) :
    (anyOps G F R).isResume f = true ↔ AnyFile.isResume f := by
  cases f <;> simp [anyOps, AnyFile.isResume]

theorem resumeRoot_ok {G : GenOps K γ} {F : TextFmt K} {f : RootFile K} {r : γ × Int}
    (h : resumeRoot G F f = .ok r) : f.mode = .resume ∧ r.2 = f.mem.length ∧
      ∃ conf cfg st g, f.data.config = some conf ∧ load F.json conf = some (.ok cfg) ∧
        f.data.state = some st ∧ G.create cfg = .ok g ∧ r.1 = G.setState g st := by
  unfold resumeRoot at h
  split at h
  · cases h
  · next hm =>
    split at h
    · cases h
    · next conf hc =>
      split at h
      · cases h
      · cases h
      · next cfg hl =>
        split at h
        · cases h
        · next st hs =>
          split at h
          · cases h
          · next g hg =>
            cases h
            exact ⟨by simpa using hm, rfl, conf, cfg, st, g, hc, hl, hs, hg, rfl⟩

/-- **C106** (a run).  For any mixture of text and ROOT files, a run that ends without an
exception, interrupted or not, has generated events `es` one after the other; every ROOT file
contains the events it contained before followed by exactly these, in order, together with
the job configuration, the state and seed of the generator at the end and the flux-averaged
cross section; the text files have what C64 says.  The number counted is the
number of events of the file that was resumed plus the new ones.

Partial: as in `C64_run_partial`, and ROOT is assumed to store and find what it is given. -/
theorem C106_run_partial [DivisionRing K] (G : GenOps K γ) (F : TextFmt K) (ofLong : Int → K)
    {R : RootIO K} (hR : R.Lawful)
    (hG : ∀ g e g', G.event g = some (.ok (e, g')) → EventText F.json e)
    (hx : ∀ g, FloatOk F.json (G.xsec g)) (cfg : JVal K) (hc : Holdable (FloatOk F.json) cfg)
    (num : Int) (hnum : num ≤ longMax) (stop : Nat → Bool) (fs fs' : List (AnyFile K))
    (ho : ∀ f ∈ fs, OpenedAny R f) (n : Int)
    (h : produceFiles (anyOps G F R) G cfg num stop fs = some (fs', .ok n)) :
    ∃ g old es g', Generates G g es g' ∧
      List.Forall₂ (AnyRecords G F ofLong R cfg (G.xsec g) es g' n) fs fs' ∧ n = old + es.length ∧
      (es ≠ [] → n ≤ num) ∧ (∀ k, k < es.length → stop k = false) ∧
      (num ≤ n ∨ stop es.length = true) ∧
      (((∀ f ∈ fs, ¬ AnyFile.isResume f) ∧ G.create cfg = .ok g ∧ old = 0) ∨
        ∃ a f b, fs = a ++ f :: b ∧ AnyFile.isResume f ∧ (∀ x ∈ a ++ b, ¬ AnyFile.isResume x) ∧
          ResumedFrom G F R g old f) := by
  obtain ⟨fs1, cur, g, old, es, g', h1, h2, h3, h4, h5, h6, h7, h8⟩ := produceFiles_ok h
  have hes := generates_texts hG h3
  have hrange : ∀ old : Int, longMin ≤ old ∧ old ≤ longMax → n = old + es.length →
      longMin ≤ n ∧ n ≤ longMax := by
    intro old ho hn
    refine ⟨by omega, ?_⟩
    by_cases he : es = []
    · simp [he] at hn; omega
    · have := h7 he; omega
  -- a file that is not resumed, or a ROOT file
  have hnew : (longMin ≤ n ∧ n ≤ longMax) → ∀ f ∈ fs, (¬ AnyFile.isResume f ∨ ∃ r, f = .root r) →
      AnyRecords G F ofLong R cfg (G.xsec g) es g' n f ((anyOps G F R).close
        (pushFiles (anyOps G F R) ((anyOps G F R).writeFlux f (G.xsec g)) es) cfg g' n) := by
    intro hn f hf hr
    cases f with
    | text f =>
      have hm : f.mode ≠ .resume := by
        rcases hr with hr | ⟨_, hr⟩
        · exact hr
        · cases hr
      have e : (anyOps G F R).writeFlux (.text f) (G.xsec g) = .text (writeFlux F f (G.xsec g)) := rfl
      rw [e, push_any_text]
      exact records_new ofLong (ho _ hf) hm _ hes hc (hx _) hn
    | root f =>
      have e : (anyOps G F R).writeFlux (.root f) (G.xsec g) = .root f := rfl
      rw [e, push_any_root]
      exact (root_closed hR (ho _ hf).1 G F es cfg g').1
  rcases resumeFiles_none h1 with ⟨rfl, rfl, h9⟩ | ⟨r, a, f, f1, b, rfl, rfl, rfl, a4, a5, a6⟩
  · have hs : G.create cfg = .ok g ∧ old = 0 := by
      simp only [startGen] at h2
      rcases hcr : G.create cfg with e | g0
      · simp [hcr] at h2
      · simp only [hcr, Except.ok.injEq, Prod.mk.injEq] at h2
        exact ⟨by rw [h2.1], h2.2.symm⟩
    have hn := hrange old (by rw [hs.2]; decide) h5
    have h9' : ∀ f ∈ fs1, ¬ AnyFile.isResume f := by
      intro f hf hr
      rw [← any_isResume G F R, h9 f hf] at hr
      cases hr
    refine ⟨g, old, es, g', h3, ?_, h5, h7, h6, h8, .inl ⟨h9', hs⟩⟩
    rw [h4, List.forall₂_map_right_iff, List.forall₂_same]
    exact fun f hf => hnew hn f hf (.inl (h9' f hf))
  · simp only [startGen, Except.ok.injEq] at h2
    subst h2
    have a6' : ∀ x ∈ a ++ b, ¬ AnyFile.isResume x := by
      intro f hf hr
      rw [← any_isResume G F R, a6 f hf] at hr
      cases hr
    have hab : (longMin ≤ n ∧ n ≤ longMax) → ∀ x ∈ a ++ b,
        AnyRecords G F ofLong R cfg (G.xsec g) es g' n x ((anyOps G F R).close
          (pushFiles (anyOps G F R) ((anyOps G F R).writeFlux x (G.xsec g)) es) cfg g' n) := by
      intro hn x hxm
      refine hnew hn x ?_ (.inl (a6' x hxm))
      rcases List.mem_append.1 hxm with h | h <;> simp [h]
    have both : (longMin ≤ n ∧ n ≤ longMax) ∧
        ResumedFrom G F R g old f ∧
        AnyRecords G F ofLong R cfg (G.xsec g) es g' n f ((anyOps G F R).close
          (pushFiles (anyOps G F R) ((anyOps G F R).writeFlux f1 (G.xsec g)) es) cfg g' n) := by
      cases f with
      | text f =>
        have e : (anyOps G F R).resume (.text f) = (.text (resume G F f).1, (resume G F f).2) := rfl
        rw [e] at a5
        rcases hr : resume G F f with ⟨f2, q⟩
        rw [hr] at a5
        simp only [Prod.mk.injEq] at a5
        obtain ⟨rfl, rfl⟩ := a5
        obtain ⟨-, -, m, rest, b3, b4, -⟩ := resume_ok hr
        have hn := hrange old (restore_range b3 b4) h5
        refine ⟨hn, ⟨f2, hr⟩, ?_⟩
        have e : (anyOps G F R).writeFlux (.text f2) (G.xsec g) = .text (writeFlux F f2 (G.xsec g)) := rfl
        rw [e, push_any_text]
        exact records_old ofLong (ho (.text f) (by simp)) hr _ hes hc (hx _) hn
      | root f =>
        have e : (anyOps G F R).resume (.root f) = (.root f, resumeRoot G F f) := rfl
        rw [e] at a5
        simp only [Prod.mk.injEq] at a5
        obtain ⟨rfl, hr⟩ := a5
        have hof := ho (.root f) (by simp)
        have hlen : old = f.mem.length := (resumeRoot_ok hr).2.1
        have hn := hrange old ⟨by rw [hlen]; have : longMin ≤ 0 := by decide
                                  exact this.trans (by positivity), by rw [hlen]; exact hof.2⟩ h5
        obtain ⟨-, -, conf, cfg1, st, g0, c1, c2, c3, c4, c5⟩ := resumeRoot_ok hr
        exact ⟨hn, ⟨by rw [(root_closed hR hof.1 G F es cfg g').2]; exact hlen,
          f.data, conf, cfg1, st, g0, (hof.1.facts hR).1, c1, c2, c3, c4, c5⟩,
          hnew hn _ (by simp) (.inr ⟨_, rfl⟩)⟩
    obtain ⟨hn, hres, hrec⟩ := both
    refine ⟨g, old, es, g', h3, ?_, h5, h7, h6, h8, .inr ⟨a, f, b, rfl,
      (any_isResume G F R f).1 a4, a6', hres⟩⟩
    rw [h4, List.map_append, List.map_cons]
    apply List.rel_append
    · rw [List.forall₂_map_right_iff, List.forall₂_same]
      exact fun x hx => hab hn x (by simp [hx])
    · refine .cons hrec ?_
      rw [List.forall₂_map_right_iff, List.forall₂_same]
      exact fun x hx => hab hn x (by simp [hx])

/-- Without ROOT files the program does what it does without ROOT. -/
theorem C106_text [DivisionRing K] (G : GenOps K γ) (F : TextFmt K) (R : RootIO K) (cfg : JVal K)
    (num : Int) (stop : Nat → Bool) (fs : List (OutFile K)) :
    produceFiles (anyOps G F R) G cfg num stop (fs.map .text) =
      (produce G F cfg num stop fs).map (fun p => (p.1.map .text, p.2)) := by
  unfold produceFiles produce
  rw [resumeFiles_text]
  rcases resumeAll G F fs none with ⟨fs1, e | cur⟩
  · rfl
  · dsimp only
    rcases startGen G cfg cur with e | ⟨g, old⟩
    · rfl
    · dsimp only
      have e : (fs1.map AnyFile.text).map (fun f => (anyOps G F R).writeFlux f (G.xsec g)) =
          (fs1.map (fun f => writeFlux F f (G.xsec g))).map .text := by
        rw [List.map_map, List.map_map]; rfl
      rw [e, loopFiles_text]
      rcases eventLoop G F stop num (num - old).toNat 0 (1 + old)
        (fs1.map (fun f => writeFlux F f (G.xsec g))) g with _ | ⟨fs2, e | ⟨g', c⟩⟩
      · rfl
      · rfl
      · simp only [Option.map_some, List.map_map]
        rfl

/-! ## Exceptions -/

theorem write_proper [DivisionRing K] (G : GenOps K γ) (F : TextFmt K) (R : RootIO K) (f : AnyFile K)
    (e : Event K) (h : AnyFile.proper f) :
    ((anyOps G F R).writeEvent f e).2 = .ok () ∧ AnyFile.proper ((anyOps G F R).writeEvent f e).1 := by
  cases f with
  | text f =>
    have h' : f.format ≠ .root := h
    show (writeEvent F f e).2 = .ok () ∧ (writeEvent F f e).1.format ≠ .root
    unfold writeEvent OutFile.put
    cases hf : f.format
    · exact absurd hf h'
    all_goals (dsimp only; refine ⟨?_, ?_⟩ <;> (try split) <;> (try split) <;> (try split) <;>
      first | rfl | (simp only [hf]; decide) | simp_all)
  | root f => exact ⟨rfl, trivial⟩

theorem resume_keeps (G : GenOps K γ) (F : TextFmt K) (f : OutFile K) :
    (resume G F f).1.format = f.format := by
  unfold resume OutFile.put
  dsimp only
  split
  · rfl
  · split
    · rfl
    · split
      · rfl
      · rfl
      · split
        · rfl
        · by_cases hg : f.good = true <;> simp [hg]

theorem resumeFiles_each {φ : Type} (O : FileOps K γ φ) (fs : List φ) (cur : Option (γ × Int)) :
    List.Forall₂ (fun f f' => f' = f ∨ f' = (O.resume f).1) fs (resumeFiles O fs cur).1 := by
  have hrefl : ∀ l : List φ, List.Forall₂ (fun f f' => f' = f ∨ f' = (O.resume f).1) l l :=
    fun l => List.forall₂_same.2 (fun x _ => .inl rfl)
  induction fs generalizing cur with
  | nil => exact .nil
  | cons f t ih =>
    rw [resumeFiles]
    split
    · split
      · exact hrefl _
      · rcases hr : O.resume f with ⟨f1, e | r⟩
        · exact .cons (.inr (by rw [hr])) (hrefl _)
        · exact .cons (.inr (by rw [hr])) (ih _)
    · exact .cons (.inl rfl) (ih _)

/-- **C106** (exceptions).  When a run ends with an exception, a ROOT file still has the
configuration, state, seed and cross section that it had when it was opened; its event tree
is the one it had, or has been extended by some of the events of this run.

Partial: the events since ROOT last saved the tree are lost, see `C106_lost_violated`. -/
theorem C106_exception_partial [DivisionRing K] (G : GenOps K γ) (F : TextFmt K) {R : RootIO K}
    (hR : R.Lawful) (cfg : JVal K) (num : Int) (stop : Nat → Bool) (fs fs' : List (AnyFile K))
    (ho : ∀ f ∈ fs, OpenedAny R f ∧ AnyFile.proper f) (x : Exc)
    (h : produceFiles (anyOps G F R) G cfg num stop fs = some (fs', .error x))
    (f : RootFile K) (f' : AnyFile K) (hf : (.root f, f') ∈ fs.zip fs') :
    ∃ r d t, f' = .root r ∧ R.decode f.text = some d ∧ R.decode r.text = some { d with tree := t } ∧
      (t = d.tree ∨ ∃ g es g', Generates G g es g' ∧ t = some (before R f ++ es)) := by
  have hmem : AnyFile.root f ∈ fs := (List.of_mem_zip hf).1
  have hop : OpenedRoot R f := (ho _ hmem).1.1
  have hdec := (hop.facts hR).1
  have same : f' = .root f → ∃ r d t, f' = .root r ∧ R.decode f.text = some d ∧
      R.decode r.text = some { d with tree := t } ∧
      (t = d.tree ∨ ∃ g es g', Generates G g es g' ∧ t = some (before R f ++ es)) :=
    fun e => ⟨f, f.data, f.data.tree, e, hdec, hdec, .inl rfl⟩
  have heach := resumeFiles_each (anyOps G F R) fs none
  have hstep : ∀ f1, (AnyFile.root f, f1) ∈ fs.zip (resumeFiles (anyOps G F R) fs none).1 →
      f1 = .root f := by
    intro f1 h1
    rcases (List.forall₂_iff_zip.1 heach).2 h1 with h | h <;> rw [h]
    rfl
  unfold produceFiles at h
  rcases hr : resumeFiles (anyOps G F R) fs none with ⟨fs1, e | cur⟩
  · rw [hr] at h
    simp only [Option.some.injEq, Prod.mk.injEq] at h
    obtain ⟨rfl, -⟩ := h
    exact same (hstep _ (by rw [hr]; exact hf))
  · rw [hr] at h
    dsimp only at h
    rcases hs : startGen G cfg cur with e | ⟨g, old⟩
    · rw [hs] at h
      simp only [Option.some.injEq, Prod.mk.injEq] at h
      obtain ⟨rfl, -⟩ := h
      exact same (hstep _ (by rw [hr]; exact hf))
    · rw [hs] at h
      dsimp only at h
      rcases hl : loopFiles (anyOps G F R) G stop num (num - old).toNat 0 (1 + old)
        (fs1.map (fun f => (anyOps G F R).writeFlux f (G.xsec g))) g with _ | ⟨fs2, e | ⟨g', c⟩⟩
      · rw [hl] at h; cases h
      · rw [hl] at h
        simp only [Option.some.injEq, Prod.mk.injEq] at h
        obtain ⟨rfl, -⟩ := h
        have hP : ∀ f ∈ fs1.map (fun f => (anyOps G F R).writeFlux f (G.xsec g)), AnyFile.proper f := by
          simp only [List.mem_map, forall_exists_index, and_imp, forall_apply_eq_imp_iff₂]
          intro f1 hf1
          rw [hr] at heach
          obtain ⟨i, hi, rfl⟩ := List.getElem_of_mem hf1
          have hlen : fs.length = fs1.length := heach.length_eq
          have hi' : i < fs.length := by omega
          have h2 := heach.get (i := i) hi' hi
          have hpr := (ho _ (List.getElem_mem hi')).2
          simp only [List.get_eq_getElem] at h2
          have h3 : AnyFile.proper fs1[i] := by
            rcases h2 with h2 | h2 <;> rw [h2]
            · exact hpr
            · cases hfi : fs[i] with
              | text q =>
                rw [hfi] at hpr
                show (resume G F q).1.format ≠ .root
                rw [resume_keeps]; exact hpr
              | root q => trivial
          cases hfi : fs1[i] with
          | text q =>
            rw [hfi] at h3
            show (writeFlux F q (G.xsec g)).format ≠ .root
            have h3' : q.format ≠ .root := h3
            unfold writeFlux OutFile.put
            split <;> (try split) <;> (try split) <;> exact h3'
          | root q => trivial
        obtain ⟨es, g', e1, e2, e3⟩ := loopFiles_error (write_proper G F R) hP hl
        rw [e3, List.map_map] at hf
        obtain ⟨i, hi, hfi⟩ := List.getElem_of_mem hf
        simp only [List.getElem_zip, List.getElem_map, Function.comp_apply, Prod.mk.injEq] at hfi
        simp only [List.length_zip, List.length_map] at hi
        have hroot : fs1[i]'(by omega) = .root f := by
          apply hstep
          rw [hr]
          have : (fs.zip fs1)[i]'(by simp only [List.length_zip]; omega) =
              (AnyFile.root f, fs1[i]'(by omega)) := by
            rw [List.getElem_zip, hfi.1]
          rw [← this]
          exact List.getElem_mem _
        rw [hroot] at hfi
        have hpush : f' = .root (pushRoot R f es) := by
          rw [← hfi.2]
          exact push_any_root G F R f es
        obtain ⟨p1, p2, p3, t, p4, p5⟩ := pushRoot_facts hR f hdec es
        refine ⟨_, f.data, t, hpush, hdec, by rw [p3, p4], ?_⟩
        rcases p5 with p5 | ⟨k, hk, p5⟩
        · exact .inl p5
        · right
          rw [(root_closed hR hop G F es cfg g').2]
          have htake : ∀ {g g' : γ} {es : List (Event K)}, Generates G g es g' → ∀ k,
              ∃ g1, Generates G g (es.take k) g1 := by
            intro g g' es hgen
            induction hgen with
            | nil g => intro k; exact ⟨g, by simpa using Generates.nil g⟩
            | cons g g1 g' e es he _ ih =>
              intro k
              cases k with
              | zero => exact ⟨g, .nil g⟩
              | succ k =>
                obtain ⟨g2, h2⟩ := ih k
                exact ⟨g2, .cons _ _ _ _ _ he h2⟩
          obtain ⟨g1, h1⟩ := htake e1 k
          exact ⟨g, _, g1, h1, p5⟩
      · rw [hl] at h; cases h

/-! ## Reading -/

theorem root_notNumber (t : Str) : NotNumber ('r' :: t) :=
  ⟨[], 'r' :: t, rfl, by simp, .inr ⟨'r', t, rfl, by decide, by decide⟩⟩

theorem root_deduce [DivisionRing K] {F : TextFmt K} (hf : F.dbl.Lawful) {R : RootIO K} (hR : R.Lawful)
    {text : Str} {data : RootData K} (hd : R.decode text = some data) (lg : Bool) :
    ∃ r : Reader K, deduceRoot F.dbl R ⟨true, some text⟩ (freshRoot lg) =
      (⟨⟨lg, r⟩, some data, none, -1⟩, .ok true) ∧ r.format = some .root ∧ r.initialized = false := by
  obtain ⟨t, rfl⟩ := hR.begins text data hd
  have hn := root_notNumber ('o' :: 'o' :: 't' :: t)
  have htry : tryAscii F.dbl ('r' :: 'o' :: 'o' :: 't' :: t) = .ok none := by
    simp only [tryAscii, get_notNumber hf hn]
  have hhep : Event.readHepevt F.dbl ('r' :: 'o' :: 'o' :: 't' :: t) =
      .ok (false, Event.cleared, 0, none) := by
    rw [Event.readHepevt, readInt_notNumber hn]
  have hfirst : firstChar ('r' :: 'o' :: 'o' :: 't' :: t) ≠ some '{' := by
    rw [firstChar, skipBlank_cons (by decide)]
    simp
  refine ⟨⟨some .root, true, none, none, 0, 0, false⟩, ?_, rfl, rfl⟩
  simp only [deduceRoot, freshRoot, deduce, fresh, htry, hfirst, and_false, if_false, tryHepevt, hhep,
    Bool.true_eq_false, Option.bind_some, hd]

/-- The state of the reader after some questions. -/
def ReaderAt (data : RootData K) (es : List (Event K)) (x : K) (lg : Bool) (s : RootReader K) (b : Book K) :
    Prop :=
  s.base.logging = lg ∧ s.base.reader.initialized = true ∧ s.base.reader.format = some .root ∧
    s.base.reader.xsec = x ∧ s.file = some data ∧ s.tree = some es ∧ b.shown = x ∧ b.atEnd = x ∧
    ∃ k : Nat, s.num = (k : Int) - 1 ∧ b.rest = (es.drop k).map (fun e => (e, x)) ∧
      b.ended = decide (es.length < k)

theorem root_answers [Field K] (F : TextFmt K) (ofLong : Int → K) (R : RootIO K) (d : OnDisk)
    {data : RootData K} {es : List (Event K)} {x : K} {lg : Bool} (ops : List Op) {s : RootReader K}
    {b : Book K} (h : ReaderAt data es x lg s b) :
    (answersRoot F ofLong R d s ops).1 = expected b ops ∧
      (answersRoot F ofLong R d s ops).2.base.logging = lg := by
  induction ops generalizing s b with
  | nil => exact ⟨rfl, h.1⟩
  | cons o l ih =>
    obtain ⟨h1, h2, h3, h4, h5, h6, h7, h8, k, h9, h10, h11⟩ := h
    have hens : ensureRoot F ofLong R d s = (s, .ok ()) := by rw [ensureRoot, if_pos h2]
    cases o with
    | next =>
      rw [answersRoot, expected]
      have hi : s.num + 1 = (k : Int) := by omega
      by_cases hk : k < es.length
      · have hnext : nextRoot F ofLong R d s = ({ s with num := s.num + 1 }, .ok (true, es[k])) := by
          unfold nextRoot
          simp only [hens, h3, h6, hi, if_true, Int.toNat_natCast, List.getElem?_eq_getElem hk]
          rw [if_pos (by exact_mod_cast hk)]
        have hrest : b.rest = (es[k], x) :: (es.drop (k + 1)).map (fun e => (e, x)) := by
          rw [h10, List.drop_eq_getElem_cons hk]; rfl
        have hask : askRoot F ofLong R d s .next = ({ s with num := s.num + 1 }, .event true es[k]) := by
          simp only [askRoot, hnext]
        rw [hask]
        simp only [hrest]
        have := ih (s := { s with num := s.num + 1 })
          (b := { b with rest := (es.drop (k + 1)).map (fun e => (e, x)), shown := x })
          ⟨h1, h2, h3, h4, h5, h6, rfl, h8, k + 1, by dsimp only; rw [hi]; push_cast; ring, rfl, by
            dsimp only; rw [h11, decide_eq_decide]; omega⟩
        exact ⟨by rw [this.1], this.2⟩
      · have hnext : nextRoot F ofLong R d s = ({ s with num := s.num + 1 }, .ok (false, emptyEvent)) := by
          unfold nextRoot
          simp only [hens, h3, h6, hi, if_true]
          rw [if_neg (by exact_mod_cast hk)]
        have hask : askRoot F ofLong R d s .next =
            ({ s with num := s.num + 1 }, .event false blankEvent) := by
          simp only [askRoot, hnext]; rfl
        have hrest : b.rest = [] := by rw [h10, List.drop_eq_nil_of_le (by omega)]; rfl
        rw [hask]
        simp only [hrest]
        have := ih (s := { s with num := s.num + 1 })
          (b := { b with rest := [], shown := b.atEnd, ended := true })
          ⟨h1, h2, h3, h4, h5, h6, h8, h8, k + 1, by dsimp only; rw [hi]; push_cast; ring, by
            rw [List.drop_eq_nil_of_le (by omega)]; rfl, by
            symm; rw [decide_eq_true_iff]; omega⟩
        exact ⟨by rw [← this.1], this.2⟩
    | flux natural =>
      have hflux : askRoot F ofLong R d s (.flux natural) =
          (s, .xsec (if natural then b.shown else b.shown * squareInverseMeV)) := by
        simp only [askRoot, fluxRoot, hens, h4, h7]
        rw [show (unitFactor : K) = squareInverseMeV by simp only [unitFactor, squareInverseMeV]; ring]
      rw [answersRoot, expected, hflux]
      have := ih (s := s) (b := b) ⟨h1, h2, h3, h4, h5, h6, h7, h8, k, h9, h10, h11⟩
      exact ⟨by rw [this.1], this.2⟩
    | good =>
      have hgood : askRoot F ofLong R d s .good = (s, .good (!b.ended)) := by
        simp only [askRoot, goodRoot, h3, h5, h6, if_true, h9, h11]
        congr 2
        rw [← decide_not, decide_eq_decide]
        omega
      rw [answersRoot, expected, hgood]
      have := ih (s := s) (b := b) ⟨h1, h2, h3, h4, h5, h6, h7, h8, k, h9, h10, h11⟩
      exact ⟨by rw [this.1], this.2⟩

/-- **C106** (reading).  A new reader of a ROOT file with an event tree and a cross section
gives, for any sequence of questions, the right answers: the events in their order, then
nothing more (however often it is asked), the cross section always, and `operator bool` is
true until the end has been reported.  The logging of errors is as it was before. -/
theorem C106_read_partial [Field K] (F : TextFmt K) (hf : F.dbl.Lawful) (ofLong : Int → K)
    {R : RootIO K} (hR : R.Lawful) (text : Str) (data : RootData K) (es : List (Event K)) (x : K)
    (hd : R.decode text = some data) (ht : data.tree = some es) (hx : data.flux = some x)
    (logging : Bool) (ops : List Op) (hh : ops.head? ≠ some .good) :
    (answersRoot F ofLong R ⟨true, some text⟩ (freshRoot logging) ops).1 =
        expected (constantBook x es) ops ∧
      (answersRoot F ofLong R ⟨true, some text⟩ (freshRoot logging) ops).2.base.logging = logging := by
  obtain ⟨r, h1, h2, h3⟩ := root_deduce hf hR hd logging
  have hinit : ensureRoot F ofLong R ⟨true, some text⟩ (freshRoot logging) =
      (⟨⟨logging, { r with xsec := x, initialized := true }⟩, some data, some es, -1⟩, .ok ()) := by
    rw [ensureRoot, if_neg (by simp [freshRoot, fresh]), h1]
    simp only [initRoot, h2, if_true, ht, hx]
  set s : RootReader K := ⟨⟨logging, { r with xsec := x, initialized := true }⟩, some data, some es, -1⟩
    with hs
  have hat : ReaderAt data es x logging s (constantBook x es) :=
    ⟨rfl, rfl, h2, rfl, rfl, rfl, rfl, rfl, 0, rfl, by simp [constantBook], by simp [constantBook]⟩
  have hens : ensureRoot F ofLong R ⟨true, some text⟩ s = (s, .ok ()) := by
    rw [ensureRoot, if_pos rfl]
  cases ops with
  | nil => exact ⟨rfl, rfl⟩
  | cons o l =>
    have hask : askRoot F ofLong R ⟨true, some text⟩ (freshRoot logging) o =
        askRoot F ofLong R ⟨true, some text⟩ s o := by
      cases o with
      | next => simp only [askRoot, nextRoot, hinit, hens]
      | flux n => simp only [askRoot, fluxRoot, hinit, hens]
      | good => simp at hh
    rw [answersRoot, hask]
    exact root_answers F ofLong R _ (o :: l) hat

/-! ## Reading text files -/

/-- The format is not the ROOT format. -/
def NoRoot (s : Sys K) : Prop := s.reader.format ≠ some .root

theorem deduce_noRoot [Ring K] (f : DblFmt K) (d : OnDisk) (s : Sys K) (h : NoRoot s) :
    NoRoot (deduce f d s).1 := by
  have h' : s.reader.format ≠ some .root := h
  have hhep : ∀ (was : Bool) (r : Reader K) (t : Str), r.format ≠ some .root →
      NoRoot (tryHepevt f was r t).1 := by
    intro was r t hr
    unfold tryHepevt recognised NoRoot
    split <;> first | exact hr | (show some Format.hepevt ≠ some Format.root; decide)
  unfold deduce
  split
  · exact h
  · split
    · exact h'
    · dsimp only
      split
      · unfold recognised NoRoot; show some Format.json ≠ some Format.root; decide
      · split
        · unfold recognised NoRoot; show some Format.ascii ≠ some Format.root; decide
        · exact hhep _ _ _ h'
        · exact hhep _ _ _ h'
        · exact h'

theorem init_noRoot [Zero K] (F : TextFmt K) (ofLong : Int → K) (s : Sys K) (h : NoRoot s) :
    NoRoot (initReader F ofLong s).1 := by
  have h' : s.reader.format ≠ some .root := h
  unfold initReader
  split
  · split
    · exact h
    · split <;> exact h'
  · exact h
  · unfold initJson
    split
    · exact h'
    · exact h'
    · split <;> exact h'
  · exact h
  · exact h

theorem ensure_noRoot [Ring K] (F : TextFmt K) (ofLong : Int → K) (d : OnDisk) (s : Sys K) (h : NoRoot s) :
    NoRoot (ensure F ofLong d s).1 := by
  have hd := deduce_noRoot F.dbl d s h
  unfold ensure
  split
  · exact h
  · rcases hx : deduce F.dbl d s with ⟨s1, e | b⟩
    · rw [hx] at hd; exact hd
    · rw [hx] at hd
      have hi := init_noRoot F ofLong s1 hd
      cases b
      · exact hd
      · dsimp only
        rcases hy : initReader F ofLong s1 with ⟨s2, e | u⟩
        · rw [hy] at hi; exact hi
        · rw [hy] at hi; exact hi

theorem next_noRoot [Ring K] (F : TextFmt K) (ofLong : Int → K) (d : OnDisk) (s : Sys K) (h : NoRoot s) :
    NoRoot (nextEvent F ofLong d s).1 := by
  have he := ensure_noRoot F ofLong d s h
  unfold nextEvent
  rcases hx : ensure F ofLong d s with ⟨s1, e | u⟩
  · rw [hx] at he; exact he
  · rw [hx] at he
    have h' : s1.reader.format ≠ some .root := he
    dsimp only
    split
    · exact he
    · unfold nextAscii
      split
      · exact he
      · split <;> exact h'
    · unfold nextHepevt
      split
      · exact he
      · split <;> exact h'
    · unfold nextJson
      split
      · exact he
      · dsimp only
        split
        · exact h'
        · split
          · exact h'
          · split <;> exact h'
    · exact he

theorem ensureRoot_text [Ring K] (F : TextFmt K) (ofLong : Int → K) (R : RootIO K) (d : OnDisk)
    (hd : d.text.bind R.decode = none) (s : RootReader K) (hn : NoRoot s.base) :
    (ensureRoot F ofLong R d s).1.base = (ensure F ofLong d s.base).1 ∧
      (ensureRoot F ofLong R d s).2 = (ensure F ofLong d s.base).2 := by
  have hdn := deduce_noRoot F.dbl d s.base hn
  unfold ensureRoot ensure
  split
  · exact ⟨rfl, rfl⟩
  · unfold deduceRoot
    rcases hx : deduce F.dbl d s.base with ⟨s1, e | b⟩
    · exact ⟨rfl, rfl⟩
    · rw [hx] at hdn
      cases b
      · simp only [hd]; exact ⟨trivial, trivial⟩
      · dsimp only
        unfold initRoot
        rw [if_neg hdn]
        rcases hy : initReader F ofLong s1 with ⟨s2, e | u⟩
        · simp only [hy]; exact ⟨trivial, trivial⟩
        · simp only [hy]; exact ⟨trivial, trivial⟩

/-- **C106** (reading text files).  A reader built with ROOT gives the same answers as one built
without for every file that is no ROOT file (or does not exist, or cannot be read), so that
C65 and C66 hold for it. -/
theorem C106_read_text [DivisionRing K] (F : TextFmt K) (ofLong : Int → K) (R : RootIO K) (d : OnDisk)
    (hd : d.text.bind R.decode = none) (logging : Bool) (ops : List Op) :
    (answersRoot F ofLong R d (freshRoot logging) ops).1 = answers F ofLong d ⟨logging, fresh⟩ ops ∧
      (answersRoot F ofLong R d (freshRoot logging) ops).2.base =
        afterwards F ofLong d ⟨logging, fresh⟩ ops := by
  have key : ∀ (ops : List Op) (s : RootReader K), NoRoot s.base →
      (answersRoot F ofLong R d s ops).1 = answers F ofLong d s.base ops ∧
      (answersRoot F ofLong R d s ops).2.base = afterwards F ofLong d s.base ops := by
    intro ops
    induction ops with
    | nil => intro s _; exact ⟨rfl, rfl⟩
    | cons o l ih =>
      intro s hs
      have he := ensureRoot_text F ofLong R d hd s hs
      have hen := ensure_noRoot F ofLong d s.base hs
      have hstep : (askRoot F ofLong R d s o).1.base = (ask F ofLong d s.base o).1 ∧
          (askRoot F ofLong R d s o).2 = (ask F ofLong d s.base o).2 ∧
          NoRoot (ask F ofLong d s.base o).1 := by
        cases o with
        | next =>
          have hnn := next_noRoot F ofLong d s.base hs
          have hnext : (nextRoot F ofLong R d s).1.base = (nextEvent F ofLong d s.base).1 ∧
              (nextRoot F ofLong R d s).2 = (nextEvent F ofLong d s.base).2 := by
            have hagain : ∀ s1 : Sys K, ensure F ofLong d s.base = (s1, .ok ()) →
                nextEvent F ofLong d s1 = nextEvent F ofLong d s.base := by
              intro s1 h1
              have hini : s1.reader.initialized = true := by
                unfold ensure at h1
                split at h1
                · next hi => cases h1; exact hi
                · split at h1
                  · cases h1
                  · cases h1
                  · split at h1
                    · cases h1
                    · cases h1; rfl
              have h2 : ensure F ofLong d s1 = (s1, .ok ()) := by rw [ensure, if_pos hini]
              unfold nextEvent
              rw [h1, h2]
            unfold nextRoot
            rcases hx : ensureRoot F ofLong R d s with ⟨s1, e | u⟩
            · rw [hx] at he
              have h1 : ensure F ofLong d s.base = (s1.base, .error e) := Prod.ext he.1.symm he.2.symm
              unfold nextEvent
              rw [h1]
              exact ⟨rfl, rfl⟩
            · rw [hx] at he
              have h1 : ensure F ofLong d s.base = (s1.base, .ok ()) := Prod.ext he.1.symm he.2.symm
              have h2 : s1.base.reader.format ≠ some .root := by rw [h1] at hen; exact hen
              simp only [if_neg h2, hagain _ h1]
              exact ⟨trivial, trivial⟩
          simp only [askRoot, ask]
          rcases hx : nextRoot F ofLong R d s with ⟨s1, e | ⟨b, ev⟩⟩ <;>
            rcases hy : nextEvent F ofLong d s.base with ⟨s2, e' | ⟨b', ev'⟩⟩ <;>
            simp_all
        | flux natural =>
          simp only [askRoot, ask, fluxRoot, fluxXsec]
          rcases hx : ensureRoot F ofLong R d s with ⟨s1, e | u⟩ <;>
            rcases hy : ensure F ofLong d s.base with ⟨s2, e' | u'⟩ <;>
            simp_all
        | good =>
          have : goodRoot s = good s.base.reader := by rw [goodRoot, if_neg hs]
          simp only [askRoot, ask, this]
          rcases good s.base.reader with e | b <;> exact ⟨rfl, rfl, hs⟩
      obtain ⟨e1, e2, e3⟩ := hstep
      have := ih (askRoot F ofLong R d s o).1 (by rw [e1]; exact e3)
      rw [e1] at this
      rw [answersRoot, answers, afterwards, List.foldl_cons]
      exact ⟨by rw [e2, this.1], this.2⟩
  exact key ops (freshRoot logging) (by simp [NoRoot, freshRoot, fresh])

/-! ## Concrete files -/

instance : Countable Char :=
  Function.Injective.countable (f := Char.toNat) (fun _ _ h => Char.ext (UInt32.toNat_inj.1 h))

instance : Countable Parity := Function.Injective.countable (f := fun p : Parity => p.isPositive)
  (by intro a b h; cases a; cases b; simp_all)

instance : Countable (Particle ℚ) := Function.Injective.countable
  (f := fun p : Particle ℚ => (p.E, p.px, p.py, p.pz, p.pdg, p.mass, p.charge))
  (by intro a b h; cases a; cases b; simp_all)

instance : Countable (Event ℚ) := Function.Injective.countable
  (f := fun e : Event ℚ => (e.initial, e.final, e.Ex, e.twoJ, e.parity))
  (by intro a b h; cases a; cases b; simp_all)

instance : Countable (RootData ℚ) := Function.Injective.countable
  (f := fun d : RootData ℚ => (d.tree, d.config, d.state, d.seed, d.flux))
  (by intro a b h; cases a; cases b; simp_all)

/-- A number for each content. -/
noncomputable def rootCode : RootData ℚ → Nat := Classical.choose (Countable.exists_injective_nat _)

theorem rootCode_inj : Function.Injective rootCode := Classical.choose_spec (Countable.exists_injective_nat _)

/-- The text of the example: `root` and as many `x` as the number of the content. -/
noncomputable def rootText (d : RootData ℚ) : Str := 'r' :: 'o' :: 'o' :: 't' :: List.replicate (rootCode d) 'x'

open Classical in
/-- A ROOT of the example that saves the tree by itself if `saves`. -/
noncomputable def exRoot (saves : Bool) : RootIO ℚ where
  encode := rootText
  decode s := if h : ∃ d, rootText d = s then some h.choose else none
  saves _ := saves

theorem rootText_inj : Function.Injective rootText := by
  intro a b h
  apply rootCode_inj
  simpa [rootText] using congrArg List.length h

open Classical in
theorem exRoot_lawful (saves : Bool) : (exRoot saves).Lawful where
  decode_encode d := by
    have h : ∃ d', rootText d' = rootText d := ⟨d, rfl⟩
    show (if h : ∃ d', rootText d' = rootText d then some h.choose else none) = some d
    rw [dif_pos h]
    exact congrArg some (rootText_inj h.choose_spec)
  begins s d h := by
    have h' : (if h : ∃ d', rootText d' = s then some h.choose else none) = some d := h
    split at h'
    · next hs => exact ⟨_, hs.choose_spec.symm⟩
    · cases h'

/-- A request for a ROOT file. -/
def rootRequest (mode : String) : Request := ⟨"events.root".toList, "root".toList, mode.toList, false, none⟩

/-- The new file. -/
noncomputable def exNew : RootFile ℚ := ⟨"events.root".toList, .overwrite, rootText .empty, .empty, []⟩

theorem exNew_opened (saves : Bool) : OpenedRoot (exRoot saves) exNew :=
  ⟨rootRequest "overwrite", ⟨none, true, []⟩, rfl⟩

/-- A file with content `d` opened again. -/
noncomputable def exAgain (d : RootData ℚ) : RootFile ℚ :=
  ⟨"events.root".toList, .resume, rootText d, d, d.tree.getD []⟩

theorem exAgain_opened (saves : Bool) (d : RootData ℚ) (es : List (Event ℚ)) (h : d.tree = some es) :
    openRoot (exRoot saves) (rootRequest "resume") ⟨some (rootText d), true, []⟩ =
      (some (rootText d), .ok (exAgain d)) := by
  have hd : (exRoot saves).decode (rootText d) = some d := (exRoot_lawful saves).decode_encode d
  have e1 : (rootRequest "resume").format = "root".toList := rfl
  have e2 : (rootRequest "resume").mode = "resume".toList := rfl
  have e3 := (C106_open (exRoot saves) (rootRequest "resume") ⟨some (rootText d), true, []⟩ e1).2.1 (.inr e2)
  have e4 := e3.1 (rootText d) d es rfl rfl hd h
  have e5 : exAgain d = ⟨(rootRequest "resume").name, .resume, rootText d, d, es⟩ := by
    unfold exAgain; rw [h]; rfl
  rw [e5]
  exact e4

/-- Two events of the counter. -/
def twoEvents : List (Event ℚ) :=
  [{ sampleEvent with twoJ := 2 * ((0 : Nat) % 2) }, { sampleEvent with twoJ := 2 * ((1 : Nat) % 2) }]

/-- What the file holds after a run with the counter. -/
noncomputable def exHolds (es : List (Event ℚ)) (g : Nat) : RootData ℚ :=
  ⟨some es, some (dumpString exText.json (-1) (.obj [])), some (List.replicate g 'x'), some (natText 7),
    some (3 / 2)⟩

theorem exRun (saves : Bool) : ∃ r, produceFiles (anyOps counter exText (exRoot saves)) counter (.obj []) 2
    (fun _ => false) [.root exNew] = some ([.root r], .ok 2) ∧ r.data = exHolds twoEvents 2 ∧
      r.text = rootText (exHolds twoEvents 2) := by
  cases saves <;> exact ⟨_, rfl, rfl, rfl⟩

theorem exNew_any (saves : Bool) : ∀ f ∈ [AnyFile.root exNew], OpenedAny (exRoot saves) f := by
  intro f hf
  rw [List.mem_singleton] at hf
  subst hf
  exact ⟨exNew_opened saves, by show ((0 : Nat) : Int) ≤ longMax; decide⟩

/-- A run that meets the hypotheses of `C106_run_partial`, and what follows for its file. -/
example (saves : Bool) : ∃ r, produceFiles (anyOps counter exText (exRoot saves)) counter (.obj []) 2
    (fun _ => false) [.root exNew] = some ([.root r], .ok 2) ∧
    ∃ es g', es.length = 2 ∧ Generates counter (0 : Nat) es g' ∧
      RootHolds counter exText (exRoot saves) r.text es (.obj []) g' := by
  obtain ⟨r, h, -⟩ := exRun saves
  refine ⟨r, h, ?_⟩
  obtain ⟨g, old, es, g', h1, h2, h3, -, -, -, h7⟩ := C106_run_partial counter exText (fun n => (n : ℚ))
    (exRoot_lawful saves) counter_texts (fun _ => codedFloats_ok _) (.obj []) empty_config 2 (by decide)
    (fun _ => false) _ _ (exNew_any saves) 2 h
  rcases h7 with ⟨-, hg, ho⟩ | ⟨a, f, b, hab, hres, -⟩
  · cases hg
    refine ⟨es, g', by omega, h1, ?_⟩
    have : RootHolds counter exText (exRoot saves) r.text (before (exRoot saves) exNew ++ es) (.obj []) g' := by
      cases h2 with | cons h _ => exact h
    have hb : before (exRoot saves) exNew = [] :=
      (root_closed (exRoot_lawful saves) (exNew_opened saves) counter exText [] (.obj []) (0 : Nat)).2
    rwa [hb] at this
  · have hf : f ∈ [AnyFile.root exNew] := by rw [hab]; simp
    rw [List.mem_singleton] at hf
    subst hf
    cases hres

/-- Reading that file. -/
example (saves lg : Bool) : (answersRoot exText (fun n => (n : ℚ)) (exRoot saves)
    ⟨true, some (rootText (exHolds twoEvents 2))⟩ (freshRoot lg)
      [.next, .good, .next, .next, .good, .next, .flux true]).1 =
    [.event true { sampleEvent with twoJ := 0 }, .good true, .event true { sampleEvent with twoJ := 2 },
      .event false blankEvent, .good false, .event false blankEvent, .xsec (3 / 2)] :=
  (C106_read_partial exText ratFmt_lawful _ (exRoot_lawful saves) _ (exHolds twoEvents 2) twoEvents (3 / 2)
    ((exRoot_lawful saves).decode_encode _) rfl rfl lg _ (by decide)).1

/-- A text file is no ROOT file. -/
example (saves : Bool) : (⟨true, some ['3']⟩ : OnDisk).text.bind (exRoot saves).decode = none := by
  cases h : (exRoot saves).decode ['3'] with
  | none => exact h
  | some d =>
    obtain ⟨t, ht⟩ := (exRoot_lawful saves).begins _ _ h
    cases ht

/-- A generator that throws after its second event. -/
def tired : GenOps ℚ Nat :=
  { counter with event := fun g => if g < 2 then counter.event g else some (.error .marleyError) }

/-- **C106 is violated**: the events that were generated before an exception are not in the file
(which has no event tree and cannot be resumed), although they had been written to it. -/
theorem C106_lost_violated : ∃ r, produceFiles (anyOps tired exText (exRoot false)) tired (.obj []) 5
      (fun _ => false) [.root exNew] = some ([.root r], .error .marleyError) ∧ r.mem = twoEvents ∧
    r.text = (exRoot false).encode .empty ∧ ∀ data, (exRoot false).decode r.text = some data → data.tree = none := by
  refine ⟨_, rfl, rfl, rfl, ?_⟩
  intro data h
  have : (exRoot false).decode ((exRoot false).encode .empty) = some data := h
  rw [(exRoot_lawful false).decode_encode] at this
  cases this
  rfl

/-- The same run meets the hypotheses of `C106_exception_partial`; if ROOT saves the tree, the
events are there. -/
example : ∃ r, produceFiles (anyOps tired exText (exRoot true)) tired (.obj []) 5
      (fun _ => false) [.root exNew] = some ([.root r], .error .marleyError) ∧
    (exRoot true).decode r.text = some { RootData.empty with tree := some twoEvents } ∧
    (∀ f ∈ [AnyFile.root exNew], OpenedAny (exRoot true) f ∧ AnyFile.proper f) ∧
    (AnyFile.root exNew, AnyFile.root r) ∈ [AnyFile.root exNew].zip [AnyFile.root r] := by
  refine ⟨_, rfl, (exRoot_lawful true).decode_encode _, ?_, by simp⟩
  intro f hf
  have := exNew_any true f hf
  rw [List.mem_singleton] at hf
  subst hf
  exact ⟨this, trivial⟩

end Marley.Props
