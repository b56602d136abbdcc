import Verif.Lemmas.Scene

/-!
# Property C150: what a reader of the written files sees of a document of scenes
-/

set_option linter.unusedSectionVars false

namespace Verif.Render

open Verif Verif.Dyn Verif.Path Verif.PlanSet Verif.Svg Verif.Files Verif.Xml Verif.Spec

variable {O : Type}

/-- **C150.** A scene, alone in elements that define nothing, is rendered to the strokes that it draws, from wherever it begins, and ends where it ends. -/
theorem C150_scene (m : Machine (XNum ℝ) O) (hf : 0 < m.fuel) (sc : Scene) (n : Nat) (hn : sc.depth ≤ n) (s : Spot (XNum ℝ)) (hs : PlainSpot s) (a : Point ℝ) :
    ∃ p : Path ℝ, m.render n s (live m.world (sc.node m.world)) [] (finPt a) = .ok (finPath p, live m.world (sc.node m.world), []) ∧
      strokes p = (sc.draws (pt a)).1 ∧ pt (currentPosition p) = (sc.draws (pt a)).2 := by
  obtain ⟨p, h1, h2⟩ := render_scene m hf sc n hn s hs a
  exact ⟨p, h1, h2.strokes, h2.stop⟩

/-- The component that is made of a map. -/
def madeOf (w : World (XNum ℝ)) (n : Nat) (mp : DMap (XNum ℝ)) : Dyn.Node (XNum ℝ) :=
  match w.make [] n mp with
  | .val c => c
  | _ => .mk [] mp []

theorem madeOf_scene (w : World (XNum ℝ)) (n : Nat) (s : Scene) (h : s.depth ≤ n) : madeOf w n s.map = s.node w := by
  simp only [madeOf, make_scene w [] s n h]

theorem depth_le : ∀ {ss : List Scene} {s : Scene}, s ∈ ss → s.depth ≤ Scene.depths ss
  | t :: ss, s, h => by
    rw [Scene.depths]
    rcases List.mem_cons.mp h with rfl | h
    · omega
    · have := depth_le h
      omega

theorem live_scenes (w : World (XNum ℝ)) (n : Nat) : ∀ (ss : List Scene), Scene.depths ss ≤ n →
    (ss.map Scene.map).map (fun c => live w (madeOf w n c)) = lives w (Scene.nodes w ss)
  | [], _ => by rw [Scene.nodes, lives]; rfl
  | s :: ss, h => by
    rw [Scene.depths] at h
    rw [Scene.nodes, lives, ← live_scenes w n ss (by omega), List.map_cons, List.map_cons, madeOf_scene w n s (by omega)]

theorem neat_tableau (o : Tableau) : o.piece.Neat := by
  intro c hc
  obtain ⟨s, _, rfl⟩ := List.mem_map.mp hc
  exact neat_scene s

theorem drawsTableau (m : Machine (XNum ℝ) O) (hf : 0 < m.fuel) {doc : Elem (XNum ℝ)} (hd : Bare doc) (o : Tableau) (ho : Scene.depths o.scenes ≤ m.fuel) :
    DrawsPiece m (madeOf m.world m.fuel) doc o.piece o.draws := by
  have hs : PlainSpot (pieceSpot doc o.piece) := ⟨hd, by
    intro e he
    rw [show (pieceSpot doc o.piece).ups = [⟨[], shownPiece o.piece, []⟩] from rfl, List.mem_singleton] at he
    subst he
    exact piece_plain _⟩
  obtain ⟨ps, h1, h2⟩ := render_scenes m hf o.scenes m.fuel ho _ hs origin
  have h0 : pt (origin : Point ℝ) = (0, 0) := by simp [pt, origin]
  rw [h0] at h2
  refine ⟨ps, lives m.world (Scene.nodes m.world o.scenes), fun p hp => (h2.ok p hp).2, h2.strokes, ?_⟩
  rw [show o.piece.components = o.scenes.map Scene.map from rfl, live_scenes m.world m.fuel o.scenes ho]
  exact h1

/-- **C150.** Whoever reads the files of a document of scenes sees every part once, with its name: all the strokes of its scenes in their order, bent as their
transforms and those of all groups around say, shifted or turned as a whole; the parts are kept apart. -/
theorem C150_seen (m : Machine (XNum ℝ) O) (hf : 0 < m.fuel) (files : Nat) (s : Sheet ℝ) (hs : 0 ≤ s.padding) (os : List Tableau)
    (ho : ∀ o ∈ os, o.WellMade ∧ Scene.depths o.scenes ≤ m.fuel) :
    SheetsShow s (m.sheets (files + 1) (tableauDoc s os)) (os.map fun o => (o.id, o.draws)) := by
  have hd := bare_piece m.world (madeOf m.world m.fuel) s (os.map Tableau.piece) (by
    intro o h
    obtain ⟨o, -, rfl⟩ := List.mem_map.mp h
    exact neat_tableau o)
  refine pieces_seen m files s hs (madeOf m.world m.fuel) Tableau.piece Tableau.draws os (fun o _ => neat_tableau o) ?_
    (fun o h => ⟨(ho o h).1.name.1, (ho o h).1.name.2, (ho o h).1.sizeable⟩) fun o h => drawsTableau m hf hd o (ho o h).2
  intro o h c hc
  obtain ⟨sc, hsc, rfl⟩ := List.mem_map.mp hc
  have hle : sc.depth ≤ m.fuel := (depth_le hsc).trans (ho o h).2
  rw [madeOf_scene _ _ _ hle]
  exact ⟨make_scene m.world [] sc m.fuel hle, node_map _ _⟩

/-- **C150.** Transforms add up: a group of one scene draws what the scene with all the transforms draws. -/
theorem C150_nested (cs : List PenCmd) (bs bs' : List Bend) (q : Pt ℝ) : (Scene.group (.draw cs bs) [] bs').draws q = (Scene.draw cs (bs ++ bs')).draws q := by
  have hb : ∀ (bs : List Bend) (x : Pt ℝ), bend bs' (bend bs x) = bend (bs ++ bs') x := by
    intro bs
    induction bs with
    | nil => intro x; rfl
    | cons b bs ih => intro x; exact ih _
  rw [Scene.draws, Scene.draws, Scene.draws, Scene.drawsAll]
  simp only [List.append_nil, List.map_map, hb, Prod.mk.injEq, and_true]
  refine List.map_congr_left fun s _ => ?_
  cases s <;> simp only [Function.comp_apply, Stroke.map, hb]

/-- The part of an example: a square and a line after it, in a group that is turned by a quarter, in a group that is stretched and moved. -/
noncomputable def exampleTableau : Tableau :=
  ⟨"flag".toList, [.group (.group (.draw [.rectangle 1 1] []) [.draw [.relLine (2, 1)] [.scale 1 1]] [.matrix 0 1 (-1) 0 0 0]) [] [.scale 2 3, .move (1, 1)]]⟩

/-- What it draws. -/
theorem exampleTableau_draws : exampleTableau.draws = [.line (1, 1) (1, 4), .line (1, 4) (-1, 4), .line (-1, 4) (-1, 1), .line (-1, 1) (1, 1), .line (1, 1) (-1, 7)] := by
  simp only [Tableau.draws, exampleTableau, Scene.drawsAll, Scene.draws, penDraws, penEnd, PenCmd.draws, PenCmd.next, bend, Bend.act, Stroke.map, List.map_cons, List.map_nil,
    List.append_nil, List.cons_append, List.nil_append, Prod.mk_add_mk]
  norm_num

theorem exampleTableau_wellMade : exampleTableau.WellMade where
  name := ⟨by decide, unmarked_of_all (by decide)⟩
  sizeable := by
    rw [exampleTableau_draws]
    refine ⟨⟨(-1, 4), (1, 1), meets_start (b := (-1, 1)) (by simp), meets_start (b := (1, 4)) (by simp), by norm_num⟩,
      ⟨(1, 1), (1, 4), meets_start (b := (1, 4)) (by simp), meets_start (b := (-1, 4)) (by simp), by norm_num⟩, ?_⟩
    rintro q ⟨s, hs, t, h0, h1, rfl⟩
    have key : ∃ p r : Pt ℝ, s = .line p r ∧ |p.1| < 2 ^ 62 ∧ |p.2| < 2 ^ 62 ∧ |r.1| < 2 ^ 62 ∧ |r.2| < 2 ^ 62 := by
      simp only [List.mem_cons, List.not_mem_nil, or_false] at hs
      rcases hs with rfl | rfl | rfl | rfl | rfl <;> exact ⟨_, _, rfl, by norm_num, by norm_num, by norm_num, by norm_num⟩
    obtain ⟨p, r, rfl, k1, k2, k3, k4⟩ := key
    exact ⟨abs_between k1 k3 h0 h1, abs_between k2 k4 h0 h1⟩

/-- **C150** is not empty. -/
example (m : Machine (XNum ℝ) O) (hf : 3 ≤ m.fuel) (files : Nat) :
    SheetsShow ⟨20, 10, 1⟩ (m.sheets (files + 1) (tableauDoc ⟨20, 10, 1⟩ [exampleTableau, exampleTableau]))
      [("flag".toList, exampleTableau.draws), ("flag".toList, exampleTableau.draws)] :=
  C150_seen m (by omega) files ⟨20, 10, 1⟩ zero_le_one [exampleTableau, exampleTableau] fun o h => by
    simp only [List.mem_cons, List.not_mem_nil, or_false, or_self] at h
    subst h
    refine ⟨exampleTableau_wellMade, ?_⟩
    have : Scene.depths exampleTableau.scenes = 3 := by simp [exampleTableau, Scene.depths, Scene.depth]
    omega

end Verif.Render
