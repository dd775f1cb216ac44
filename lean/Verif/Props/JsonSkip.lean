import Verif.Props.JsonLex
import Verif.Lemmas.Json.Sound
/-
  What is skipped (C44), the other way round.
-/
namespace Reflect.Json

/-- Whatever text a reader is opened on: if skipping leaves it usable, what it has skipped is a document, and it stands
right behind it, with no token looked ahead at. -/
theorem C44_only_documents (o : ROpts) (s : Bytes) (n : Nat) (r' : Reader) (h : skip n (Reader.open o s) = .ok r')
    (hok : r'.ok = true) :
    ∃ x y, Reads o s (JTree.toks x) y ∧ r'.rest = y ∧ r'.tok.type = .noToken := by
  have he : r'.err = none := by
    cases hx : r'.err with
    | none => rfl
    | some e => rw [Reader.not_ok_of_err hx] at hok; cases hok
  rcases skip_sound n s _ r' (Pos.open o s) h he with ⟨x, y, h1, b, h2⟩ | h1
  · exact ⟨x, y, h1, h2.rest, by rw [h2.tok]⟩
  · rw [h1.2.1] at hok; cases hok

/-- Where the text goes on behind it, `skip` passes over exactly the documents: it leaves a usable reader with `y` to come
if, and only if, what is before `y` is a document. -/
theorem C44_skip_iff (o : ROpts) (s y : Bytes) (hy : y ≠ []) :
    (∃ n r', skip n (Reader.open o s) = .ok r' ∧ r'.ok = true ∧ r'.rest = y) ↔ ∃ x, Reads o s (JTree.toks x) y := by
  constructor
  · rintro ⟨n, r', h, hok, rfl⟩
    obtain ⟨x, y, h1, rfl, _⟩ := C44_only_documents o s n r' h hok
    exact ⟨x, h1⟩
  · rintro ⟨x, h⟩
    have hf : FedR o (x.toks ++ []) y (Reader.open o s) := by rw [List.append_nil]; exact FedR.open h
    obtain ⟨r', h1, h2⟩ := skip_fed _ x _ [] (Nat.le_refl _) (fun _ _ => Or.inr hy) hf.fed
    exact ⟨_, r', h1, h2.ok (Or.inr hy), h2.rest⟩

/-- non-vacuity: after `[1]` in `[1],`, and nothing in `]` -/
example : (∃ n r', skip n (Reader.open ROpts.default [91, 49, 93, 44]) = .ok r' ∧ r'.ok = true ∧ r'.rest = [44]) := by
  obtain ⟨r', h1, h2⟩ := Res.run (x := skip 5 (Reader.open ROpts.default [91, 49, 93, 44]))
    (fun r => r.ok && r.rest == [44]) (by decide +kernel)
  simp at h2
  exact ⟨5, r', h1, h2.1, h2.2⟩

end Reflect.Json
