import Verif.Spec.RoundedSheets
import Verif.Lemmas.Rounded
import Verif.Lemmas.SheetInduct

/-! # Helper lemmas for sheets laid out with rounding -/

set_option linter.unusedSectionVars false

namespace Verif.PlanSet

open Verif Verif.BinPacking Verif.Spec

universe u v w
variable {F : Type u} [Arith F] {K : Type v} [Field K] [LinearOrder K] [IsStrictOrderedRing K] {P : Type w}
variable {fin : F → Prop} {val : F → K} {M ε : K}

/-- What `Feasible` says about the settings, for `n` parts. -/
structure FineSheet (fin : F → Prop) (val : F → K) (M ε : K) (s : Sheet F) (n : Nat) : Prop where
  fins : fin s.width ∧ fin s.height ∧ fin s.padding
  room : Room fin val M (4 * n * ε + 2 * ε) Arith.zero Arith.zero s.width s.height
  padding : 0 ≤ val s.padding

/-- What `Feasible` says about a part. -/
def FinePart (fin : F → Prop) (val : F → K) (M ε : K) (s : Sheet F) (p : RenderedPart F P) : Prop :=
  fin p.width ∧ fin p.height ∧ 0 < val p.width ∧ 0 < val p.height ∧ val s.padding * 2 + val p.width + ε ≤ M ∧ val s.padding * 2 + val p.height + ε ≤ M

/-- A sheet in normal use. -/
structure Usual (fin : F → Prop) (val : F → K) (ε : K) (s : Sheet F) (d : SvgDoc F P) (foot bins : List (Rect K)) : Prop where
  close : d.container.root.Close fin val ε
  top : d.container.root.top = ⟨Arith.zero, Arith.zero, s.width, s.height, false⟩
  depth : d.container.root.depth ≤ 2 * d.renderables.length
  foot_spec : List.Forall₂ (fun (r : Renderable F P) (f : Rect K) => f.x = val r.x ∧ f.y = val r.y ∧
    ((f.w = val r.part.width ∧ f.h = val r.part.height) ∨ (f.w = val r.part.height ∧ f.h = val r.part.width))) d.renderables foot
  bins_spec : List.Forall₂ (fun f b => Foot ε (f, val s.padding) b) foot bins
  placed : (d.container.root.placed.map fun p => rectVal val p.1).Perm bins
  fits : ∀ r ∈ d.renderables, FitsRounded val s r.part
  positions : ∀ r ∈ d.renderables, fin r.x ∧ fin r.y

/-- A sheet with a single part that does not fit. -/
def Over (val : F → K) (s : Sheet F) (d : SvgDoc F P) : Prop :=
  ∃ b p, d.container.root = .full b p ∧ d.renderables = [⟨Arith.zero, Arith.zero, p, false⟩] ∧ ¬FitsRounded val s p

def Kept (s : Sheet F) (d : SvgDoc F P) : Prop :=
  d.padding = s.padding ∧ d.container.width = s.width ∧ d.container.height = s.height ∧ d.container.x = Arith.zero ∧ d.container.y = Arith.zero

/-- Invariant of the sheets after at most `n` parts. -/
def SheetFine (fin : F → Prop) (val : F → K) (ε : K) (s : Sheet F) (n : Nat) (d : SvgDoc F P) : Prop :=
  (Kept s d ∧ (newSvgDoc s.width s.height s.padding : SvgDoc F P).addAll d.parts = some d) ∧ d.renderables.length ≤ n ∧
    ((∃ foot bins, Usual fin val ε s d foot bins) ∨ Over val s d)

variable (hR : Rounds fin val M ε)

include hR in
theorem badSize_val {s : Sheet F} {p : RenderedPart F P} (hp : FinePart fin val M ε s p) : badSize p = false := by
  obtain ⟨f1, f2, h1, h2, _⟩ := hp
  have e1 : (p.height <=. Arith.zero) = false := by
    rw [Bool.eq_false_iff, Ne, hR.le _ _ f2 hR.zero.1, hR.zero.2]
    exact not_le.2 h2
  have e2 : (p.width <=. Arith.zero) = false := by
    rw [Bool.eq_false_iff, Ne, hR.le _ _ f1 hR.zero.1, hR.zero.2]
    exact not_le.2 h1
  simp [badSize, e1, e2, hR.nan _ f1, hR.nan _ f2]

include hR in
theorem newSvgDoc_fine {s : Sheet F} {n : Nat} (hs : FineSheet fin val M ε s n) (k : Nat) :
    SheetFine fin val ε s k (newSvgDoc s.width s.height s.padding : SvgDoc F P) := by
  refine ⟨⟨⟨rfl, rfl, rfl, rfl, rfl⟩, rfl⟩, by simp [newSvgDoc], .inl ⟨[], [], ?_⟩⟩
  have hr := hs.room
  exact ⟨⟨hr.fins.1, hr.fins.2.1, hr.fins.2.2.1, hr.fins.2.2.2, hr.width, hr.height⟩, rfl, by simp [newSvgDoc, newContainer, newBin, Bin.depth], .nil, .nil,
    by simp [newSvgDoc, newContainer, newBin, Bin.placed], by simp [newSvgDoc], by simp [newSvgDoc]⟩

theorem fits_mono {r : Rect K} {W H w h : K} (h1 : r.w ≤ W) (h2 : r.h ≤ H) (hf : Fits r w h) : Fits ⟨0, 0, W, H⟩ w h := by
  rcases hf with ⟨a, b⟩ | ⟨a, b⟩
  · exact .inl ⟨a.trans h1, b.trans h2⟩
  · exact .inr ⟨a.trans h1, b.trans h2⟩

include hR in
theorem padded_pos (hε : 0 ≤ ε) {p w h : F} (fp : fin p) (fw : fin w) (fh : fin h) (p0 : 0 ≤ val p) (w0 : 0 < val w) (h0 : 0 < val h)
    (hw : val p * 2 + val w + ε ≤ M) (hh : val p * 2 + val h + ε ≤ M) : ¬(val (p *. Arith.two +. w) = 0 ∨ val (p *. Arith.two +. h) = 0) := by
  obtain ⟨t1, t2, t3⟩ := hR.twice p fp p0 (by linarith)
  rw [abs_le] at t3
  rintro (e | e)
  · exact absurd e (hR.add_pos _ _ t1 fw t2 w0 (by linarith [t3.2])).ne'
  · exact absurd e (hR.add_pos _ _ t1 fh t2 h0 (by linarith [t3.2])).ne'

include hR in
/-- Adding a part to a sheet. -/
theorem add_fine (hε : 0 ≤ ε) {s : Sheet F} {n k : Nat} (hs : FineSheet fin val M ε s n) (hk : k < n) {d : SvgDoc F P} (hd : SheetFine fin val ε s k d)
    (p : RenderedPart F P) (hp : FinePart fin val M ε s p) :
    ∃ d' res, d.add p = some (d', res) ∧ SheetFine fin val ε s (k + 1) d' ∧ res ≠ .error ∧ (d.container.isEmpty = true → res = .added) := by
  have hb := badSize_val hR hp
  obtain ⟨⟨hset, hall⟩, hlen, hd⟩ := hd
  obtain ⟨hset1, hset2, hset3, hset4, hset5⟩ := id hset
  obtain ⟨f1, f2, p1, p2, p3, p4⟩ := id hp
  rcases hd with ⟨foot, bins, hd⟩ | hd
  · have hkn : (d.renderables.length : K) + 1 ≤ n := by
      have : d.renderables.length + 1 ≤ n := by omega
      exact_mod_cast this
    have hdep : (d.container.root.depth : K) ≤ 2 * d.renderables.length := by exact_mod_cast hd.depth
    have hbound : 2 * ((d.container.root.depth : K) + 2) * ε ≤ 4 * n * ε := by
      have : 2 * ((d.container.root.depth : K) + 2) ≤ 4 * n := by linarith
      exact mul_le_mul_of_nonneg_right this hε
    rcases insertPadded_rounded hR hε hs.room p f1 f2 hs.fins.2.2 p1.le p2.le hs.padding p3 p4 d.container hd.close hd.top hbound with
      ⟨t', bin, f, at_, h1, h2, h3, h4, h5, h6, h7, h8, h9, _, _, hxy, e, he, hfit⟩ | ⟨h1, h2⟩
    · have hadd : d.add p = some ({ d with container := { d.container with root := t' }, renderables := d.renderables ++ [⟨bin.x, bin.y, p, bin.rotated⟩] }, .added) := by
        simp only [SvgDoc.add, hb, hset1, h1, Bool.false_eq_true, if_false]
      refine ⟨_, .added, hadd,
        ⟨⟨hset, by rw [(add_parts hadd).1]; exact addAll_append _ _ _ hall hadd⟩, by simp; omega, .inl ⟨foot ++ [f], bins ++ [at_], ⟨h3, h2.trans hd.top, ?_, List.rel_append hd.foot_spec (.cons ⟨h7, h8, h9.imp (fun h => ⟨h.1, h.2.1⟩) fun h => ⟨h.1, h.2.1⟩⟩ .nil),
          List.rel_append hd.bins_spec (.cons h6 .nil), ?_, ?_, ?_⟩⟩⟩, by simp, fun _ => rfl⟩
      · simp only [List.length_append, List.length_cons, List.length_nil]
        have := hd.depth
        omega
      · exact h5.trans ((hd.placed.cons _).trans (by simpa using (List.perm_append_singleton _ _).symm))
      · intro r hr
        rcases List.mem_append.1 hr with hr | hr
        · exact hd.fits r hr
        · obtain rfl := List.mem_singleton.1 hr
          obtain ⟨_, e1, e2, _⟩ := close_within hε hd.close e (List.mem_append.2 (.inr he))
          rw [hd.top] at e1 e2
          exact fits_mono e1 e2 hfit
      · intro r hr
        rcases List.mem_append.1 hr with hr | hr
        · exact hd.positions r hr
        · obtain rfl := List.mem_singleton.1 hr
          exact hxy
    · by_cases he : d.container.isEmpty = true
      · obtain ⟨b, hroot⟩ : ∃ b, d.container.root = .free b := by
          unfold Container.isEmpty at he
          split at he
          · exact ⟨_, by assumption⟩
          · simp at he
        have hempty : d.renderables = [] := by
          have h := hd.placed
          rw [hroot] at h
          have hb0 : bins = [] := by simpa [Bin.placed] using h
          have h' := hd.bins_spec
          rw [hb0] at h'
          have hf0 := List.forall₂_nil_right_iff.1 h'
          have h'' := hd.foot_spec
          rw [hf0] at h''
          exact List.forall₂_nil_right_iff.1 h''
        have hnf : ¬FitsRounded val s p := by
          have htop := hd.top
          rw [hroot] at htop
          simp only [Bin.top] at htop
          rcases h2 with h2 | h2
          · exact absurd h2 (padded_pos hR hε hs.fins.2.2 f1 f2 hs.padding p1 p2 p3 p4)
          · have := h2 b (by simp [Container.emptyBins, hroot, Bin.empties])
            rw [htop] at this
            intro hc
            exact this hc
        have hadd : d.add p = some (⟨d.width, d.height, d.padding,
            newSingleObjectContainer p d.container.x d.container.y d.container.width d.container.height,
            d.renderables ++ [⟨d.container.x, d.container.y, p, false⟩]⟩, .added) := by
          simp only [SvgDoc.add, hb, hset1, h1, he, Bool.false_eq_true, if_false, if_true]
        refine ⟨_, .added, hadd, ⟨⟨⟨hset1, hset2, hset3, hset4, hset5⟩, by rw [(add_parts hadd).1]; exact addAll_append _ _ _ hall hadd⟩, by simp; omega, .inr ?_⟩,
          by simp, fun _ => rfl⟩
        · exact ⟨_, p, rfl, by simp [hempty, hset4, hset5], hnf⟩
      · refine ⟨d, .notAdded, ?_, ⟨⟨hset, hall⟩, by omega, .inl ⟨foot, bins, hd⟩⟩, by simp, fun h => absurd h he⟩
        simp only [SvgDoc.add, hb, hset1, h1, he, Bool.false_eq_true, if_false]
        rw [← hset1]
  · obtain ⟨b, q, hroot, h2, h3⟩ := id hd
    have hc : d.container.isEmpty = false := by simp [Container.isEmpty, hroot]
    have hi : ∀ w h, d.container.insert p w h = some (d.container, none) := by
      intro w h
      simp only [Container.insert, hroot, Bin.insert]
      rw [← hroot]
    have h1 : ∀ w h pad, d.container.insertWithPadding p w h pad = some (d.container, none) := by
      intro w h pad
      simp only [Container.insertWithPadding, hi]
    refine ⟨d, .notAdded, ?_, ⟨⟨hset, hall⟩, by omega, .inr hd⟩, by simp, fun h => by rw [hc] at h; cases h⟩
    simp only [SvgDoc.add, hb, h1, hc, Bool.false_eq_true, if_false]

theorem SheetFine.mono {s : Sheet F} {k k' : Nat} (h : k ≤ k') {d : SvgDoc F P} (hd : SheetFine fin val ε s k d) : SheetFine fin val ε s k' d :=
  ⟨hd.1, hd.2.1.trans h, hd.2.2⟩

include hR in
theorem addToDocs_fine (hε : 0 ≤ ε) {s : Sheet F} {n k : Nat} (hs : FineSheet fin val M ε s n) (hk : k < n) (p : RenderedPart F P)
    (hp : FinePart fin val M ε s p) : ∀ docs : List (SvgDoc F P), (∀ d ∈ docs, SheetFine fin val ε s k d) →
    ∃ docs' res, addToDocs p docs = some (docs', res) ∧ (∀ d ∈ docs', SheetFine fin val ε s (k + 1) d) ∧ res ≠ .error := by
  intro docs
  induction docs with
  | nil => intro _; exact ⟨[], _, rfl, by simp, by simp⟩
  | cons d ds ih =>
    intro hds
    obtain ⟨d', res, h1, h2, h3, _⟩ := add_fine hR hε hs hk (hds d (by simp)) p hp
    obtain ⟨ds', res', k1, k2, k3⟩ := ih (fun d' h' => hds d' (by simp [h']))
    cases res with
    | error => simp at h3
    | added =>
      refine ⟨d' :: ds, .added, by simp [addToDocs, h1], ?_, by simp⟩
      intro x hx
      rcases List.mem_cons.1 hx with rfl | hx
      · exact h2
      · exact (hds x (by simp [hx])).mono (Nat.le_succ _)
    | notAdded =>
      refine ⟨d' :: ds', res', by simp [addToDocs, h1, k1], ?_, k3⟩
      intro x hx
      rcases List.mem_cons.1 hx with rfl | hx
      · exact h2
      · exact k2 x hx

include hR in
theorem addPart_fine (hε : 0 ≤ ε) {s : Sheet F} {n k : Nat} (hs : FineSheet fin val M ε s n) (hk : k < n) (p : RenderedPart F P)
    (hp : FinePart fin val M ε s p) (docs : List (SvgDoc F P)) (hd : ∀ d ∈ docs, SheetFine fin val ε s k d) :
    ∃ docs', addPart s docs p = some (docs', .added) ∧ ∀ d ∈ docs', SheetFine fin val ε s (k + 1) d := by
  obtain ⟨docs', res, h1, h2, h3⟩ := addToDocs_fine hR hε hs hk p hp docs hd
  cases res with
  | error => simp at h3
  | added => exact ⟨docs', by simp [addPart, h1], h2⟩
  | notAdded =>
    obtain ⟨d', res, k1, k2, _, k4⟩ := add_fine hR hε hs hk (newSvgDoc_fine hR hs k) p hp
    have : res = .added := k4 (by simp [newSvgDoc, newContainer, newBin, Container.isEmpty])
    subst this
    refine ⟨docs' ++ [d'], by simp [addPart, h1, k1], ?_⟩
    intro x hx
    rcases List.mem_append.1 hx with hx | hx
    · exact h2 x hx
    · rw [List.mem_singleton.1 hx]; exact k2

include hR in
theorem addRendered_fine (hε : 0 ≤ ε) {s : Sheet F} {n : Nat} (hs : FineSheet fin val M ε s n) : ∀ (ps : List (RenderedPart F P)) (k : Nat)
    (docs : List (SvgDoc F P)), k + ps.length ≤ n → (∀ p ∈ ps, FinePart fin val M ε s p) → (∀ d ∈ docs, SheetFine fin val ε s k d) →
    ∃ docs', addRendered s docs ps = some (docs', .ok) ∧ ∀ d ∈ docs', SheetFine fin val ε s (k + ps.length) d := by
  intro ps
  induction ps with
  | nil => intro k docs _ _ hd; exact ⟨docs, rfl, hd⟩
  | cons p ps ih =>
    intro k docs hk hp hd
    simp only [List.length_cons] at hk
    obtain ⟨docs', h1, h2⟩ := addPart_fine hR hε hs (by omega) p (hp p (by simp)) docs hd
    obtain ⟨docs'', k1, k2⟩ := ih (k + 1) docs' (by omega) (fun q hq => hp q (by simp [hq])) h2
    refine ⟨docs'', by simp [addRendered, h1, k1], fun d hd => ?_⟩
    have := k2 d hd
    rwa [show k + 1 + ps.length = k + (p :: ps).length by simp; omega] at this

include hR in
theorem initLoop_fine (hε : 0 ≤ ε) {s : Sheet F} {n : Nat} (hs : FineSheet fin val M ε s n) : ∀ (all : List (List (RenderedPart F P))) (k : Nat)
    (docs : List (SvgDoc F P)), k + all.flatten.length ≤ n → (∀ p ∈ all.flatten, FinePart fin val M ε s p) → (∀ d ∈ docs, SheetFine fin val ε s k d) →
    ∃ docs', initLoop s docs (all.map some) = some (docs', .ok) ∧ ∀ d ∈ docs', SheetFine fin val ε s n d := by
  intro all
  induction all with
  | nil => intro k docs hk _ hd; exact ⟨docs, rfl, fun d h => (hd d h).mono (by simpa using hk)⟩
  | cons ps rest ih =>
    intro k docs hk hp hd
    rw [List.flatten_cons, List.length_append] at hk
    obtain ⟨docs', h1, h2⟩ := addRendered_fine hR hε hs ps k docs (by omega) (fun q hq => hp q (by simp [hq])) hd
    obtain ⟨docs'', k1, k2⟩ := ih (k + ps.length) docs' (by omega) (fun q hq => hp q (by
      rw [List.flatten_cons]; exact List.mem_append.2 (Or.inr hq))) h2
    exact ⟨docs'', by simp [initLoop, h1, k1], k2⟩

/-- What the invariant says about the footprints. -/
theorem Usual.apart (hε : 0 ≤ ε) (hzero : val Arith.zero = 0) {s : Sheet F} {d : SvgDoc F P} {foot bins : List (Rect K)} (hd : Usual fin val ε s d foot bins) :
    (∀ f ∈ foot, (f.grow (val s.padding)).Within (Rect.grow ⟨0, 0, val s.width, val s.height⟩ ((4 * d.renderables.length + 3) * ε))) ∧
    foot.Pairwise fun f g => f.Apart g (val s.padding * 2 - (8 * d.renderables.length + 6) * ε) := by
  have hdep : (d.container.root.depth : K) ≤ 2 * d.renderables.length := by exact_mod_cast hd.depth
  have hdep' := mul_le_mul_of_nonneg_right hdep hε
  refine ⟨fun f hf => ?_, ?_⟩
  · obtain ⟨b, hb, hfb⟩ : ∃ b ∈ bins, Foot ε (f, val s.padding) b := by
      have h := hd.bins_spec
      have hf' := hf
      generalize foot = fs at h hf'
      generalize bins = bs at h
      induction h with
      | nil => simp at hf'
      | @cons a b l m hab _ ih =>
        rcases List.mem_cons.1 hf' with rfl | hf'
        · exact ⟨b, by simp, hab⟩
        · obtain ⟨b', e1, e2⟩ := ih hf'
          exact ⟨b', by simp [e1], e2⟩
    obtain ⟨q, hq, rfl⟩ := List.mem_map.1 (hd.placed.symm.subset hb)
    have hw := (close_within hε hd.close q.1 (List.mem_append.2 (.inl (List.mem_map.2 ⟨q, hq, rfl⟩)))).1
    rw [hd.top] at hw
    have := grow_within hfb hw
    simp only [rectVal, hzero] at this
    exact grow_mono (by linarith) this
  · have hp : (d.container.root.placed.map fun p => rectVal val p.1).Pairwise fun a b => a.Apart b (-(4 * d.container.root.depth * ε)) :=
      List.pairwise_map.2 (close_apart hε hd.close)
    rw [hd.placed.pairwise_iff] at hp
    · refine pairwise_forall₂ ?_ hd.bins_spec hp
      intro f b g b' hf hg h
      obtain ⟨f1, f2, f3, f4⟩ := hf
      obtain ⟨g1, g2, g3, g4⟩ := hg
      simp only [Rect.grow] at f1 f2 f3 f4 g1 g2 g3 g4
      rcases h with h | h | h | h
      · exact .inl (by linarith)
      · exact .inr (.inl (by linarith))
      · exact .inr (.inr (.inl (by linarith)))
      · exact .inr (.inr (.inr (by linarith)))
    · intro a b h
      rcases h with h | h | h | h
      · exact .inr (.inl h)
      · exact .inl h
      · exact .inr (.inr (.inr h))
      · exact .inr (.inr (.inl h))

/-- What the invariant says about a sheet. -/
theorem SheetFine.laid (hε : 0 ≤ ε) (hzero : val Arith.zero = 0) {s : Sheet F} {k : Nat} {d : SvgDoc F P} (hd : SheetFine fin val ε s k d) :
    Laid val s ((4 * d.renderables.length + 3) * ε) ((8 * d.renderables.length + 6) * ε) d ∨ Alone val s d := by
  obtain ⟨_, _, ⟨foot, bins, hd⟩ | ⟨b, p, _, h1, h2⟩⟩ := hd
  · exact .inl ⟨hd.fits, foot, hd.foot_spec, hd.apart hε hzero⟩
  · exact .inr ⟨p, h1, h2⟩

include hR in
/-- Adding a part that fits an empty sheet, and does not fill a free bin. -/
theorem add_ground (hε : 0 ≤ ε) {s : Sheet F} {n k : Nat} (hs : FineSheet fin val M ε s n) (hk : k < n) {d : SvgDoc F P} (hset : Kept s d)
    (hlen : d.renderables.length ≤ k) {bins : List (Rect K)} (hd : Usual fin val ε s d (d.renderables.map (groundOf val)) bins)
    (p : RenderedPart F P) (hp : FinePart fin val M ε s p) (hfit : FitsRounded val s p) (hne : val p.width = val p.height ∨ NoFilling val d p) :
    ∃ d' res bins', d.add p = some (d', res) ∧ Kept s d' ∧ d'.renderables.length ≤ k + 1 ∧ Usual fin val ε s d' (d'.renderables.map (groundOf val)) bins' := by
  have hb := badSize_val hR hp
  obtain ⟨hset1, hset2, hset3, hset4, hset5⟩ := id hset
  obtain ⟨f1, f2, p1, p2, p3, p4⟩ := id hp
  have hkn : (d.renderables.length : K) + 1 ≤ n := by
    have : d.renderables.length + 1 ≤ n := by omega
    exact_mod_cast this
  have hdep : (d.container.root.depth : K) ≤ 2 * d.renderables.length := by exact_mod_cast hd.depth
  have hbound : 2 * ((d.container.root.depth : K) + 2) * ε ≤ 4 * n * ε := by
    have : 2 * ((d.container.root.depth : K) + 2) ≤ 4 * n := by linarith
    exact mul_le_mul_of_nonneg_right this hε
  rcases insertPadded_rounded hR hε hs.room p f1 f2 hs.fins.2.2 p1.le p2.le hs.padding p3 p4 d.container hd.close hd.top hbound with
    ⟨t', bin, f, at_, h1, h2, h3, h4, h5, h6, h7, h8, h9, _, _, hxy, e, he, hfit'⟩ | ⟨h1, h2⟩
  · have hf : f = groundOf val ⟨bin.x, bin.y, p, bin.rotated⟩ := by
      have hno : val p.width = val p.height ∨ ¬Filling val d.container (s.padding *. Arith.two +. p.width) (s.padding *. Arith.two +. p.height) := by
        refine hne.imp_right fun h hf => ?_
        obtain ⟨b, hb, hbs⟩ := hf
        rw [← hset1] at hbs
        have := h b hb
        rcases hbs with hbs | hbs
        · exact this.1 hbs
        · exact this.2 hbs
      obtain ⟨fx, fy, fw, fh⟩ := f
      simp only at h7 h8 h9
      subst h7 h8
      unfold groundOf
      rcases hno with hno | hno
      · rcases h9 with ⟨rfl, rfl, _⟩ | ⟨rfl, rfl, _⟩ <;> simp only <;> split <;> simp [hno]
      · rcases h9 with ⟨rfl, rfl, h⟩ | ⟨rfl, rfl, h⟩
        · rw [if_neg (by simp [h.resolve_right hno])]
        · rw [if_pos (h.resolve_right hno)]
    refine ⟨{ d with container := { d.container with root := t' }, renderables := d.renderables ++ [⟨bin.x, bin.y, p, bin.rotated⟩] }, .added, bins ++ [at_], ?_,
      hset, by simp; omega, ?_⟩
    · simp only [SvgDoc.add, hb, hset1, h1, Bool.false_eq_true, if_false]
    · rw [List.map_append, List.map_singleton, ← hf]
      refine ⟨h3, h2.trans hd.top, ?_, List.rel_append hd.foot_spec (.cons ⟨h7, h8, h9.imp (fun h => ⟨h.1, h.2.1⟩) fun h => ⟨h.1, h.2.1⟩⟩ .nil),
        List.rel_append hd.bins_spec (.cons h6 .nil), ?_, ?_, ?_⟩
      · simp only [List.length_append, List.length_cons, List.length_nil]
        have := hd.depth
        omega
      · exact h5.trans ((hd.placed.cons _).trans (by simpa using (List.perm_append_singleton _ _).symm))
      · intro r hr
        rcases List.mem_append.1 hr with hr | hr
        · exact hd.fits r hr
        · obtain rfl := List.mem_singleton.1 hr
          exact hfit
      · intro r hr
        rcases List.mem_append.1 hr with hr | hr
        · exact hd.positions r hr
        · obtain rfl := List.mem_singleton.1 hr
          exact hxy
  · by_cases he : d.container.isEmpty = true
    · exfalso
      obtain ⟨b, hroot⟩ : ∃ b, d.container.root = .free b := by
        unfold Container.isEmpty at he
        split at he
        · exact ⟨_, by assumption⟩
        · simp at he
      have htop := hd.top
      rw [hroot] at htop
      simp only [Bin.top] at htop
      rcases h2 with h2 | h2
      · exact absurd h2 (padded_pos hR hε hs.fins.2.2 f1 f2 hs.padding p1 p2 p3 p4)
      · have := h2 b (by simp [Container.emptyBins, hroot, Bin.empties])
        rw [htop] at this
        exact this hfit
    · refine ⟨d, .notAdded, bins, ?_, hset, by omega, hd⟩
      simp only [SvgDoc.add, hb, hset1, h1, he, Bool.false_eq_true, if_false]
      rw [← hset1]

include hR in
theorem addAll_ground (hε : 0 ≤ ε) {s : Sheet F} {n : Nat} (hs : FineSheet fin val M ε s n) : ∀ (ps : List (RenderedPart F P)) (k : Nat) (d : SvgDoc F P)
    (bins : List (Rect K)), k + ps.length ≤ n → (∀ p ∈ ps, FinePart fin val M ε s p) → (∀ p ∈ ps, FitsRounded val s p) → NoFillings val d ps → Kept s d →
    d.renderables.length ≤ k → Usual fin val ε s d (d.renderables.map (groundOf val)) bins →
    ∃ d' bins', d.addAll ps = some d' ∧ Usual fin val ε s d' (d'.renderables.map (groundOf val)) bins' := by
  intro ps
  induction ps with
  | nil => intro k d bins _ _ _ _ _ _ hd; exact ⟨d, bins, rfl, hd⟩
  | cons p ps ih =>
    intro k d bins hk hp hf hne hset hlen hd
    simp only [List.length_cons] at hk
    obtain ⟨d', res, bins', h1, h2, h3, h4⟩ := add_ground hR hε hs (by omega) hset hlen hd p (hp p (by simp)) (hf p (by simp)) hne.1
    obtain ⟨d'', bins'', k1, k2⟩ := ih (k + 1) d' bins' (by omega) (fun q hq => hp q (by simp [hq])) (fun q hq => hf q (by simp [hq])) (hne.2 _ _ h1) h2 h3 h4
    exact ⟨d'', bins'', by rw [SvgDoc.addAll, h1]; exact k1, k2⟩

end Verif.PlanSet
