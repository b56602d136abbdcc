import Verif.Model.PlanSet
import Verif.NumClass

/-!
# Layouts of finite numbers in extended arithmetic

The layout never leaves the finite numbers, so it is the same in extended arithmetic as in exact arithmetic.
-/

namespace Verif.PlanSet

open Verif Verif.BinPacking Verif.XNum

universe u v

variable {K : Type u} [Field K] [LinearOrder K] {O : Type v} {O' : Type v} {P : Type v}

def finBox (b : Box K) : Box (XNum K) := ⟨.fin b.x, .fin b.y, .fin b.width, .fin b.height, b.rotated⟩

def finBin (f : O → O') : Bin K O → Bin (XNum K) O'
  | .free b => .free (finBox b)
  | .full b o => .full (finBox b) (f o)
  | .split b l r => .split (finBox b) (finBin f l) (finBin f r)

def finContainer (f : O → O') (c : Container K O) : Container (XNum K) O' := ⟨finBin f c.root, .fin c.width, .fin c.height, .fin c.x, .fin c.y⟩

def finPart (p : RenderedPart K P) : RenderedPart (XNum K) P := ⟨.fin p.width, .fin p.height, p.payload⟩

def finRend (r : Renderable K P) : Renderable (XNum K) P := ⟨.fin r.x, .fin r.y, finPart r.part, r.rotate⟩

def finDoc (d : SvgDoc K P) : SvgDoc (XNum K) P := ⟨.fin d.width, .fin d.height, .fin d.padding, finContainer finPart d.container, d.renderables.map finRend⟩

def finSheet (s : Sheet K) : Sheet (XNum K) := ⟨.fin s.width, .fin s.height, .fin s.padding⟩

theorem tooSmall_fin (b : Box K) (w h : K) : tooSmall (finBox b) (.fin w) (.fin h) = tooSmall b w h := by
  simp [tooSmall, finBox]

theorem degenerate_fin (w h : K) : degenerate (.fin w : XNum K) (.fin h) = degenerate w h := by
  simp [degenerate, Arith.zero]

theorem orient_fin (b : Box K) (w h : K) :
    orient (finBox b) (.fin w) (.fin h) = (orient b w h).map fun x => (x.1, .fin x.2.1, .fin x.2.2) := by
  simp only [orient, tooSmall_fin]
  split
  · split <;> rfl
  · rfl

theorem splitBoxes_fin (b : Box K) (r : Bool) (w h : K) :
    splitBoxes (finBox b) r (.fin w) (.fin h) = (finBox (splitBoxes b r w h).1, finBox (splitBoxes b r w h).2) := by
  simp only [splitBoxes, finBox, sub_fin, lt_fin, Arith.sub_field, Arith.lt_field]
  split <;> simp

theorem insertFree_fin (f : O → O') : ∀ (n : Nat) (b : Box K) (o : O) (w h : K),
    insertFree n (finBox b) (f o) (.fin w) (.fin h) = (insertFree n b o w h).map fun x => (finBin f x.1, x.2.map finBox)
  | 0, b, o, w, h => rfl
  | n + 1, b, o, w, h => by
    rw [insertFree, insertFree, degenerate_fin]
    split
    · rfl
    · rw [orient_fin]
      cases orient b w h with
      | none => rfl
      | some x =>
        obtain ⟨r, width, height⟩ := x
        simp only [Option.map_some]
        have e : ((finBox b).height ==. (.fin height : XNum K) && (finBox b).width ==. (.fin width : XNum K)) = (b.height ==. height && b.width ==. width) := by
          simp [finBox]
        rw [e]
        split
        · rfl
        · simp only [splitBoxes_fin, insertFree_fin f n]
          cases insertFree n (splitBoxes b r width height).1 o w h with
          | none => rfl
          | some x => rfl

theorem insert_fin (f : O → O') (n : Nat) (o : O) (w h : K) : ∀ b : Bin K O,
    (finBin f b).insert n (f o) (.fin w) (.fin h) = (b.insert n o w h).map fun x => (finBin f x.1, x.2.map finBox)
  | .free b => insertFree_fin f n b o w h
  | .full b o' => rfl
  | .split b l r => by
    simp only [finBin, Bin.insert]
    rw [insert_fin f n o w h l]
    rcases l.insert n o w h with _ | ⟨l', _ | at_⟩
    · rfl
    · simp only [Option.map_some, Option.map_none]
      rw [insert_fin f n o w h r]
      cases r.insert n o w h <;> rfl
    · rfl

theorem insertWithPadding_fin (f : O → O') (c : Container K O) (o : O) (w h padding : K) :
    (finContainer f c).insertWithPadding (f o) (.fin w) (.fin h) (.fin padding) =
      (c.insertWithPadding o w h padding).map fun x => (finContainer f x.1, x.2.map finBox) := by
  have e : ∀ w : K, ((.fin padding : XNum K) *. Arith.two +. .fin w) = .fin (padding *. Arith.two +. w) := fun w => by simp [Arith.two]
  simp only [Container.insertWithPadding, Container.insert, e]
  rw [show (finContainer f c).root = finBin f c.root from rfl, insert_fin]
  rcases c.root.insert splitDepth o (padding *. Arith.two +. w) (padding *. Arith.two +. h) with _ | ⟨b, _ | bin⟩
  · rfl
  · rfl
  · simp [finContainer, finBox]

theorem isEmpty_fin (f : O → O') (c : Container K O) : (finContainer f c).isEmpty = c.isEmpty := by
  obtain ⟨root, w, h, x, y⟩ := c
  cases root <;> rfl

theorem badSize_fin (p : RenderedPart K P) : badSize (finPart p) = badSize p := by
  simp [badSize, finPart, Arith.zero]

theorem add_doc_fin (d : SvgDoc K P) (p : RenderedPart K P) :
    (finDoc d).add (finPart p) = (d.add p).map fun x => (finDoc x.1, x.2) := by
  simp only [SvgDoc.add, badSize_fin]
  split
  · rfl
  · have h := insertWithPadding_fin finPart d.container p p.width p.height d.padding
    rw [show (finDoc d).container = finContainer finPart d.container from rfl, show (finPart p).width = .fin p.width from rfl,
      show (finPart p).height = .fin p.height from rfl, show (finDoc d).padding = .fin d.padding from rfl, h]
    rcases d.container.insertWithPadding p p.width p.height d.padding with _ | ⟨c, _ | bin⟩
    · rfl
    · simp only [Option.map_some, Option.map_none, isEmpty_fin]
      split
      · simp [finDoc, finRend, finContainer, newSingleObjectContainer, finBin, finBox]
      · rfl
    · simp [finDoc, finRend, finBox]

theorem addToDocs_fin (p : RenderedPart K P) : ∀ docs : List (SvgDoc K P),
    addToDocs (finPart p) (docs.map finDoc) = (addToDocs p docs).map fun x => (x.1.map finDoc, x.2)
  | [] => rfl
  | d :: ds => by
    rw [List.map_cons, addToDocs, addToDocs, add_doc_fin]
    rcases d.add p with _ | ⟨d', _ | _ | _⟩
    · rfl
    · rfl
    · simp only [Option.map_some]
      rw [addToDocs_fin p ds]
      cases addToDocs p ds <;> rfl
    · rfl

theorem newSvgDoc_fin (s : Sheet K) : (newSvgDoc (finSheet s).width (finSheet s).height (finSheet s).padding : SvgDoc (XNum K) P) = finDoc (newSvgDoc s.width s.height s.padding) := by
  simp [newSvgDoc, finDoc, finContainer, newContainer, newBin, finBin, finBox, finSheet, Arith.zero]

theorem addPart_fin (s : Sheet K) (docs : List (SvgDoc K P)) (p : RenderedPart K P) :
    addPart (finSheet s) (docs.map finDoc) (finPart p) = (addPart s docs p).map fun x => (x.1.map finDoc, x.2) := by
  rw [addPart, addPart, addToDocs_fin]
  rcases addToDocs p docs with _ | ⟨docs', _ | _ | _⟩
  · rfl
  · rfl
  · simp only [Option.map_some]
    rw [newSvgDoc_fin, add_doc_fin]
    rcases (newSvgDoc s.width s.height s.padding).add p with _ | ⟨d', _ | _ | _⟩ <;> simp
  · rfl

theorem addRendered_fin (s : Sheet K) : ∀ (ps : List (RenderedPart K P)) (docs : List (SvgDoc K P)),
    addRendered (finSheet s) (docs.map finDoc) (ps.map finPart) = (addRendered s docs ps).map fun x => (x.1.map finDoc, x.2)
  | [], docs => rfl
  | p :: ps, docs => by
    rw [List.map_cons, addRendered, addRendered, addPart_fin]
    rcases addPart s docs p with _ | ⟨docs', _ | _ | _⟩
    · rfl
    · exact addRendered_fin s ps docs'
    · rfl
    · rfl

end Verif.PlanSet
