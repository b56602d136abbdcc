import Verif.Model.Render

/-!
# Further statements for C113 and C119: the words of documents
-/

namespace Verif.Render

open Verif Verif.Dyn Verif.Path

universe u

variable {F : Type u} {O : Type}

/-- The part transformer that a map asks for. -/
def AsksFor (w : World F) (mp : DMap F) (t : Machine.Transformer F) : Prop :=
  w.text mp "type".toList = some "splitter".toList ∧ t = .splitter mp ∨ w.text mp "type".toList = some "lathe".toList ∧ t = .lathe mp

/-- **C119.** Part transformers are made, in their order, if and only if each map says `splitter` or `lathe` under `type`. -/
theorem C119_kinds (m : Machine F O) : ∀ (mps : List (DMap F)) (ts : List (Machine.Transformer F)), m.makeTransformers mps = some ts ↔ List.Forall₂ (AsksFor m.world) mps ts
  | [], ts => by
    simp only [Machine.makeTransformers, Option.some.injEq]
    constructor
    · rintro rfl; exact .nil
    · intro h; cases h; rfl
  | mp :: mps, ts => by
    have ih := C119_kinds m mps
    have hu1 : unknownName ≠ splitterName := by decide
    have hu2 : unknownName ≠ latheName := by decide
    have hsl : latheName ≠ splitterName := by decide
    have key : ∀ x : Text, x ≠ unknownName → ((m.world.text mp typeKey).getD unknownName = x ↔ m.world.text mp typeKey = some x) := by
      intro x hx
      cases h : m.world.text mp typeKey with
      | none => simp only [Option.getD_none, reduceCtorEq, iff_false]; exact fun e => hx e.symm
      | some y => simp
    unfold Machine.makeTransformers
    simp only
    constructor
    · intro h
      split at h
      · next e =>
        obtain ⟨ts, hts, rfl⟩ := Option.map_eq_some_iff.mp h
        exact .cons (.inl ⟨(key _ hu1.symm).mp e, rfl⟩) ((ih ts).mp hts)
      · split at h
        · next e =>
          obtain ⟨ts, hts, rfl⟩ := Option.map_eq_some_iff.mp h
          exact .cons (.inr ⟨(key _ hu2.symm).mp e, rfl⟩) ((ih ts).mp hts)
        · cases h
    · intro h
      cases h with
      | cons ha h =>
        rcases ha with ⟨e, rfl⟩ | ⟨e, rfl⟩
        · rw [if_pos ((key _ hu1.symm).mpr e), (ih _).mpr h, Option.map_some]
        · have e' := (key _ hu2.symm).mpr e
          rw [if_neg (by rw [e']; exact hsl), if_pos e', (ih _).mpr h, Option.map_some]

/-- Not vacuous. -/
example (m : Machine F O) : m.makeTransformers [[("type".toList, .str "lathe".toList)]] = some [.lathe [("type".toList, .str "lathe".toList)]] :=
  (C119_kinds m _ _).mpr (.cons (.inr ⟨rfl, rfl⟩) .nil)

/-- **C113.** The words under which a document names a file, its imports, their names and the parts, and those under which components have single components. -/
theorem C113_words : filenameKey = "filename".toList ∧ importsKey = "imports".toList ∧ pathKey = "path".toList ∧ aliasKey = "alias".toList ∧ partsKey = "parts".toList ∧
    defaultsKey = "defaults".toList ∧ customTypeKey = "custom_component.type".toList ∧ Dyn.indexKey = "params.index".toList ∧ componentsKey = "components".toList ∧
    Built.copies.holes = ["component".toList] ∧ Built.repeatEdge.holes = ["repeatable".toList, "left".toList, "right".toList] ∧
    Built.xIntercept.holes = ["repeatable".toList, "outline".toList] ∧ Built.around.holes = ["repeatable".toList] := by
  decide +kernel

end Verif.Render
