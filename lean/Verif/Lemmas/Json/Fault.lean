import Verif.Spec.JsonFault
import Verif.Lemmas.Json.Charset
import Verif.Lemmas.Json.Trip
import Verif.Props.JsonWrite
namespace Reflect.Json

theorem leading_two {c : Byte} (h : 0xC0 ≤ c.toNat ∧ c.toNat < 0xE0) : leadingOnes c = some 2 := by
  unfold leadingOnes
  simp only
  rw [if_neg (by omega), if_neg (by omega), if_pos h.2]

theorem leading_three {c : Byte} (h : 0xE0 ≤ c.toNat ∧ c.toNat < 0xF0) : leadingOnes c = some 3 := by
  unfold leadingOnes
  simp only
  rw [if_neg (by omega), if_neg (by omega), if_neg (by omega), if_pos h.2]

theorem leading_four {c : Byte} (h : 0xF0 ≤ c.toNat ∧ c.toNat < 0xF8) : leadingOnes c = some 4 := by
  unfold leadingOnes
  simp only
  rw [if_neg (by omega), if_neg (by omega), if_neg (by omega), if_neg (by omega), if_pos h.2]

theorem leading_inv {c : Byte} {k : Nat} (h : leadingOnes c = some k) (h2 : 2 ≤ k) (h4 : k ≤ 4) :
    (k = 2 ∧ 0xC0 ≤ c.toNat ∧ c.toNat < 0xE0) ∨ (k = 3 ∧ 0xE0 ≤ c.toNat ∧ c.toNat < 0xF0) ∨
      (k = 4 ∧ 0xF0 ≤ c.toNat ∧ c.toNat < 0xF8) := by
  unfold leadingOnes at h
  simp only at h
  repeat' split at h
  all_goals first
    | (injection h with h; omega)
    | cases h

theorem sequenced_ftext {wo : WOpts} (ho : wo.escapeUnicode = true) {s : Bytes} (h : Sequenced s) : ∃ t, FText wo s t := by
  induction h with
  | nil => exact ⟨_, .nil⟩
  | ascii c s hc _ ih => obtain ⟨t, ih⟩ := ih; exact ⟨_, .ascii c s t hc ih⟩
  | two c c1 s hc h1 _ ih =>
    obtain ⟨t, ih⟩ := ih
    exact ⟨_, .esc c [c1] 2 s t ho (leading_two hc) (by decide) (by decide) rfl (by simpa [IsCont] using h1) ih⟩
  | three c c1 c2 s hc h1 h2 _ ih =>
    obtain ⟨t, ih⟩ := ih
    exact ⟨_, .esc c [c1, c2] 3 s t ho (leading_three hc) (by decide) (by decide) rfl
      (by simp only [IsCont, List.mem_cons, List.not_mem_nil, or_false]; rintro x (rfl | rfl) <;> assumption) ih⟩
  | four c c1 c2 c3 s hc h1 h2 h3 _ ih =>
    obtain ⟨t, ih⟩ := ih
    exact ⟨_, .esc c [c1, c2, c3] 4 s t ho (leading_four hc) (by decide) (by decide) rfl
      (by simp only [IsCont, List.mem_cons, List.not_mem_nil, or_false]; rintro x (rfl | rfl | rfl) <;> assumption) ih⟩

theorem ftext_sequenced {wo : WOpts} (ho : wo.escapeUnicode = true) {s t : Bytes} (h : FText wo s t) : Sequenced s := by
  induction h with
  | nil => exact .nil
  | ascii c s t hc _ ih => exact .ascii c s hc ih
  | raw c s t _ h => rw [ho] at h; cases h
  | esc c tl k s t _ h1 h2 h3 h4 h5 _ ih =>
    rcases leading_inv h1 h2 h3 with ⟨rfl, hc⟩ | ⟨rfl, hc⟩ | ⟨rfl, hc⟩
    · match tl, h4, h5 with
      | [a], _, h5 => exact .two c a s hc (h5 a (by simp)) ih
    · match tl, h4, h5 with
      | [a, b], _, h5 => exact .three c a b s hc (h5 a (by simp)) (h5 b (by simp)) ih
    · match tl, h4, h5 with
      | [a, b, d], _, h5 => exact .four c a b d s hc (h5 a (by simp)) (h5 b (by simp)) (h5 d (by simp)) ih
  | copy n s t h => rw [ho] at h; cases h

theorem raw_ftext {wo : WOpts} (ho : wo.escapeUnicode = false) (hv : wo.validateUnicode = false) :
    ∀ s : Bytes, ∃ t, FText wo s t
  | [] => ⟨_, .nil⟩
  | c :: s => by
    obtain ⟨t, ih⟩ := raw_ftext ho hv s
    by_cases hc : c.toNat < 0x80
    · exact ⟨_, .ascii c s t hc ih⟩
    · exact ⟨_, .raw c s t (by omega) ho hv ih⟩

theorem writable_iff (wo : WOpts) (s : Bytes) : (∃ t, FText wo s t) ↔ Writable wo s := by
  constructor
  · rintro ⟨t, h⟩
    exact ⟨fun ho => ftext_sequenced ho h, fun ho hv => ftext_text ho hv h⟩
  · rintro ⟨h1, h2⟩
    cases ho : wo.escapeUnicode with
    | true => exact sequenced_ftext ho (h1 ho)
    | false =>
      cases hv : wo.validateUnicode with
      | false => exact raw_ftext ho hv s
      | true =>
        obtain ⟨w, g1, g2⟩ := (C40_validation_exact wo ho hv s).mpr (h2 ho hv)
        obtain ⟨_, t, g3, _⟩ := formatString_sound g1 g2
        exact ⟨t, g3⟩

mutual
theorem gram_strs {S : Bytes → Bytes → Prop} : ∀ {x : JTree} {s : Bytes}, Gram S x s → ∀ m ∈ x.strs, ∃ t, S m t
  | _, _, .null => by simp [JTree.strs]
  | _, _, .true => by simp [JTree.strs]
  | _, _, .false => by simp [JTree.strs]
  | _, _, .int _ _ => by simp [JTree.strs]
  | _, _, .float _ _ => by simp [JTree.strs]
  | _, _, .str m t h => by simp only [JTree.strs, List.mem_singleton]; rintro _ rfl; exact ⟨t, h⟩
  | _, _, .arrNil _ _ => by simp [JTree.strs, JTree.strsL]
  | _, _, .arr xs s h => by simpa [JTree.strs] using elems_strs h
  | _, _, .objNil _ _ => by simp [JTree.strs, JTree.strsM]
  | _, _, .obj ms s h => by simpa [JTree.strs] using members_strs h
theorem elems_strs {S : Bytes → Bytes → Prop} : ∀ {xs : List JTree} {s : Bytes}, Elems S xs s → ∀ m ∈ JTree.strsL xs, ∃ t, S m t
  | _, _, .one x _ _ _ _ h _ => by simpa [JTree.strsL] using gram_strs h
  | _, _, .cons x xs _ _ _ _ _ h _ h2 => by
    simp only [JTree.strsL, List.mem_append]
    rintro m (hm | hm)
    · exact gram_strs h m hm
    · exact elems_strs h2 m hm
theorem members_strs {S : Bytes → Bytes → Prop} : ∀ {ms : List (Bytes × JTree)} {s : Bytes}, Members S ms s →
    ∀ m ∈ JTree.strsM ms, ∃ t, S m t
  | _, _, .one k x _ t _ _ _ _ _ hk _ _ h _ => by
    simp only [JTree.strsM, List.append_nil, List.mem_cons]
    rintro m (rfl | hm)
    · exact ⟨t, hk⟩
    · exact gram_strs h m hm
  | _, _, .cons k x ms _ t _ _ _ _ _ _ hk _ _ h _ h2 => by
    simp only [JTree.strsM, List.cons_append, List.mem_append, List.mem_cons]
    rintro m (rfl | hm | hm)
    · exact ⟨t, hk⟩
    · exact gram_strs h m hm
    · exact members_strs h2 m hm
end

/-! ### Where printing stops -/

theorem printItems_stop {α : Type} {fn : α → Writer → Res Writer} : ∀ (xs : List α) (first : Bool) (w w' : Writer) (b : Bool),
    w.err = none → printItems fn xs first w = .ok (w', b) → w'.err ≠ none →
    ∃ pre x post w1, xs = pre ++ x :: post ∧ w1.err = none ∧ fn x w1 = .ok w' ∧ (b = true ↔ post = []) := by
  intro xs
  induction xs with
  | nil =>
    intro first w w' b hw h he
    unfold printItems at h
    injection h with h
    injection h with h1 h2
    subst h1
    exact absurd hw he
  | cons x xs ih =>
    intro first w w' b hw h he
    unfold printItems at h
    rw [if_pos ((Writer.ok_iff w).mpr hw)] at h
    cases h1 : itemLayout first w with
    | error e => rw [h1] at h; cases h
    | ok w1 =>
      rw [h1, okb] at h
      cases h2 : fn x w1 with
      | error e => rw [h2] at h; cases h
      | ok w2 =>
        rw [h2, okb] at h
        obtain ⟨ws, e1, e2⟩ := itemLayout_spec h1
        have hw1 : w1.err = none := by rw [e2]; exact hw
        by_cases he2 : w2.err = none
        · obtain ⟨pre, y, post, w3, g1, g2, g3, g4⟩ := ih false w2 w' b he2 h he
          exact ⟨x :: pre, y, post, w3, by rw [g1]; rfl, g2, g3, g4⟩
        · cases xs with
          | nil =>
            unfold printItems at h; injection h with h; injection h with h h'
            subst h h'
            exact ⟨[], x, [], w1, rfl, hw1, h2, by simp⟩
          | cons y ys =>
            unfold printItems at h
            rw [if_neg (fun hh => he2 ((Writer.ok_iff w2).mp hh))] at h
            injection h with h; injection h with h h'
            subst h h'
            exact ⟨[], x, y :: ys, w1, rfl, hw1, h2, by simp⟩

theorem printMembers_stop {fn : Bytes → Writer → Res Writer} {skip : Bytes → Res Bool} :
    ∀ (ks : List Bytes) (first : Bool) (w w' : Writer) (b : Bool),
    w.err = none → printMembers fn skip ks first w = .ok (w', b) → w'.err ≠ none →
    ∃ pre k post w1 w2 ws, ks = pre ++ k :: post ∧ skip k = .ok false ∧ w1.err = none ∧ formatString w1 k = .ok w2 ∧
      Ws ws ∧ fn k (w2.push ([58] ++ ws)) = .ok w' ∧ (b = true ↔ post = []) := by
  intro ks
  induction ks with
  | nil =>
    intro first w w' b hw h he
    unfold printMembers at h
    injection h with h
    injection h with h1 h2
    subst h1
    exact absurd hw he
  | cons k ks ih =>
    intro first w w' b hw h he
    unfold printMembers at h
    rw [if_pos ((Writer.ok_iff w).mpr hw)] at h
    cases h0 : skip k with
    | error e => rw [h0] at h; cases h
    | ok s =>
      rw [h0, okb] at h
      cases s with
      | true =>
        simp only [if_true] at h
        obtain ⟨pre, y, post, w1, w2, ws, g1, g⟩ := ih first w w' b hw h he
        exact ⟨k :: pre, y, post, w1, w2, ws, by rw [g1]; rfl, g⟩
      | false =>
        simp only [Bool.false_eq_true, if_false] at h
        cases h1 : itemLayout first w with
        | error e => rw [h1] at h; cases h
        | ok w1 =>
          rw [h1, okb] at h
          obtain ⟨ws, e1, e2⟩ := itemLayout_spec h1
          have hw1 : w1.err = none := by rw [e2]; exact hw
          cases h2 : formatString w1 k with
          | error e => rw [h2] at h; cases h
          | ok w2 =>
            rw [h2, okb] at h
            cases h3 : fn k (w2.push [58]).space with
            | error e => rw [h3] at h; cases h
            | ok w3 =>
              rw [h3, okb] at h
              obtain ⟨ws2, e3, e4⟩ := space_spec (w2.push [58])
              rw [e4, Writer.push_push] at h3
              by_cases he3 : w3.err = none
              · obtain ⟨pre, y, post, w1, w2, ws, g1, g⟩ := ih false w3 w' b he3 h he
                exact ⟨k :: pre, y, post, w1, w2, ws, by rw [g1]; rfl, g⟩
              · cases ks with
                | nil =>
                  unfold printMembers at h; injection h with h; injection h with h h'
                  subst h h'
                  exact ⟨[], k, [], w1, w2, ws2, rfl, h0, hw1, h2, e3, h3, by simp⟩
                | cons y ys =>
                  unfold printMembers at h
                  rw [if_neg (fun hh => he3 ((Writer.ok_iff w3).mp hh))] at h
                  injection h with h; injection h with h h'
                  subst h h'
                  exact ⟨[], k, y :: ys, w1, w2, ws2, rfl, h0, hw1, h2, e3, h3, by simp⟩

theorem printItems_only_ok {α : Type} {f g : α → Writer → Res Writer}
    (hfg : ∀ x w, w.err = none → f x w = g x w) : ∀ (xs : List α) (first : Bool) (w : Writer),
    printItems f xs first w = printItems g xs first w := by
  intro xs
  induction xs with
  | nil => intro first w; rfl
  | cons x xs ih =>
    intro first w
    unfold printItems
    split
    · rename_i hok
      cases h1 : itemLayout first w with
      | error e => rfl
      | ok w1 =>
        obtain ⟨ws, _, e2⟩ := itemLayout_spec h1
        simp only [okb]
        rw [hfg x w1 (by rw [e2]; exact (Writer.ok_iff w).mp hok)]
        simp only [ih]
    · rfl

end Reflect.Json
