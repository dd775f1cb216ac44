import Verif.Spec.Config
import Verif.Lemmas.Json.Write
/-
  Lemmas on configuration paths.
-/
namespace Reflect.Config
open Json (Byte Bytes)

/-! ### Parsing -/

theorem inter_nil (sep : Bytes) : List.intercalate sep ([] : Path) = [] := rfl
theorem inter_one (sep a : Bytes) : List.intercalate sep [a] = a := by simp [List.intercalate]
theorem inter_cons (sep a b : Bytes) (p : Path) :
    List.intercalate sep (a :: b :: p) = a ++ sep ++ List.intercalate sep (b :: p) := by
  simp [List.intercalate, List.intersperse]

theorem take_eq (sep : Byte) : ∀ (a t : Bytes), sep ∉ a → (a ++ sep :: t).takeWhile (· ≠ sep) = a
  | [], t, _ => by simp
  | c :: a, t, h => by
    simp only [List.mem_cons, not_or] at h
    have ih := take_eq sep a t h.2
    simp only [List.cons_append, List.takeWhile_cons]
    rw [if_pos (by simpa using Ne.symm h.1), ih]

theorem take_all (sep : Byte) : ∀ (a : Bytes), sep ∉ a → a.takeWhile (· ≠ sep) = a
  | [], _ => by simp
  | c :: a, h => by
    simp only [List.mem_cons, not_or] at h
    have ih := take_all sep a h.2
    simp only [List.takeWhile_cons]
    rw [if_pos (by simpa using Ne.symm h.1), ih]

theorem cut (sep : Byte) : ∀ s : Bytes, (sep ∉ s) ∨ ∃ a t, s = a ++ sep :: t ∧ sep ∉ a
  | [] => Or.inl (by simp)
  | c :: s => by
    by_cases h : c = sep
    · exact Or.inr ⟨[], s, by simp [h], by simp⟩
    · rcases cut sep s with h' | ⟨a, t, e, h'⟩
      · exact Or.inl (by simp [Ne.symm h, h'])
      · exact Or.inr ⟨c :: a, t, by simp [e], by simp [Ne.symm h, h']⟩

/-- the parts of a text -/
def Parts (sep : Byte) (p : Path) (s : Bytes) : Prop :=
  (∀ c ∈ p, Component sep c) ∧ (s = List.intercalate [sep] p ∨ (p ≠ [] ∧ s = List.intercalate [sep] p ++ [sep]))

theorem parseLoop_nil (sep : Byte) (items : Path) : parseLoop sep [] items = .ok items := by
  unfold parseLoop; simp

theorem parseLoop_last (sep : Byte) {s : Bytes} (h : s ≠ []) (hs : sep ∉ s) (items : Path) :
    parseLoop sep s items = .ok (items ++ [s]) := by
  rw [parseLoop.eq_def, dif_neg h]
  simp only
  rw [take_all sep s hs, if_neg h, List.drop_eq_nil_of_le (by omega), parseLoop_nil]

theorem parseLoop_cut (sep : Byte) {a t : Bytes} (h : sep ∉ a) (items : Path) :
    parseLoop sep (a ++ sep :: t) items = if a = [] then .error .err else parseLoop sep t (items ++ [a]) := by
  rw [parseLoop.eq_def, dif_neg (by simp)]
  simp only
  rw [take_eq sep a t h]
  split
  · rfl
  · congr 1
    rw [List.drop_append, List.drop_eq_nil_of_le (by omega)]
    simp

theorem parseLoop_iff (sep : Byte) : ∀ (k : Nat) (s : Bytes), s.length ≤ k → ∀ items q,
    parseLoop sep s items = .ok q ↔ ∃ p, q = items ++ p ∧ Parts sep p s
  | k, s, hk, items, q => by
    rcases cut sep s with hs | ⟨a, t, rfl, ha⟩
    · by_cases h0 : s = []
      · subst h0
        rw [parseLoop_nil]
        constructor
        · intro h; cases h
          exact ⟨[], by simp, by simp, Or.inl rfl⟩
        · rintro ⟨p, rfl, h1, h2⟩
          have : p = [] := by
            cases p with
            | nil => rfl
            | cons a p =>
              have ha := (h1 a (by simp)).1
              exfalso
              rcases h2 with h2 | ⟨_, h2⟩
              · cases p with
                | nil => rw [inter_one] at h2; exact ha h2.symm
                | cons b p => rw [inter_cons] at h2; simp at h2
              · simp at h2
          subst this; simp
      · rw [parseLoop_last sep h0 hs]
        constructor
        · intro h; cases h
          exact ⟨[s], rfl, by intro c hc; rw [List.mem_singleton] at hc; subst hc; exact ⟨h0, hs⟩, Or.inl (inter_one _ _).symm⟩
        · rintro ⟨p, rfl, h1, h2⟩
          have : p = [s] := by
            rcases h2 with h2 | ⟨_, h2⟩
            · match p, h2 with
              | [], h2 => exact absurd h2 h0
              | [a], h2 => rw [inter_one] at h2; rw [h2]
              | a :: b :: p, h2 =>
                rw [inter_cons] at h2
                exact absurd (by rw [h2]; simp) hs
            · exact absurd (by rw [h2]; simp) hs
          rw [this]
    · rw [parseLoop_cut sep ha]
      simp only [List.length_append, List.length_cons] at hk
      obtain ⟨k, rfl⟩ : ∃ j, k = j + 1 := ⟨k - 1, by omega⟩
      by_cases h0 : a = []
      · rw [if_pos h0]
        subst h0
        constructor
        · intro h; cases h
        · rintro ⟨p, rfl, h1, h2⟩
          exfalso
          have : ∃ b p', p = b :: p' := by
            cases p with
            | nil => rcases h2 with h2 | ⟨h2, _⟩
                     · simp [inter_nil] at h2
                     · exact absurd rfl h2
            | cons b p' => exact ⟨b, p', rfl⟩
          obtain ⟨b, p', rfl⟩ := this
          obtain ⟨hb, hb'⟩ := h1 b (by simp)
          have hhead : ∃ r, sep :: t = b ++ r := by
            rcases h2 with h2 | ⟨_, h2⟩
            · cases p' with
              | nil => rw [inter_one] at h2; exact ⟨[], by simpa using h2⟩
              | cons b' p' => rw [inter_cons] at h2; exact ⟨_, by simpa [List.append_assoc] using h2⟩
            · cases p' with
              | nil => rw [inter_one] at h2; exact ⟨_, h2⟩
              | cons b' p' => rw [inter_cons] at h2; exact ⟨_, by simpa [List.append_assoc] using h2⟩
          obtain ⟨r, hr⟩ := hhead
          cases b with
          | nil => exact hb rfl
          | cons c b => injection hr with hc _; exact hb' (by simp [hc])
      · rw [if_neg h0, parseLoop_iff sep k t (by omega)]
        have split : ∀ {x y t u : Bytes}, sep ∉ x → sep ∉ y → x ++ sep :: t = y ++ sep :: u → x = y ∧ t = u := by
          intro x y t u hx hy h
          have h1 : x = y := by
            have := congrArg (List.takeWhile (· ≠ sep)) h
            rwa [take_eq sep x t hx, take_eq sep y u hy] at this
          subst h1
          simpa using h
        constructor
        · rintro ⟨p, rfl, h1, h2⟩
          refine ⟨a :: p, by simp, ?_, ?_⟩
          · intro c hc
            rcases List.mem_cons.mp hc with rfl | hc
            · exact ⟨h0, ha⟩
            · exact h1 c hc
          · cases p with
            | nil =>
              rcases h2 with h2 | ⟨h2, _⟩
              · refine Or.inr ⟨by simp, ?_⟩
                rw [inter_nil] at h2
                rw [inter_one, h2]
              · exact absurd rfl h2
            | cons b p =>
              rw [inter_cons]
              rcases h2 with h2 | ⟨_, h2⟩
              · exact Or.inl (by rw [h2]; simp)
              · exact Or.inr ⟨by simp, by rw [h2]; simp⟩
        · rintro ⟨p, rfl, h1, h2⟩
          match p, h1, h2 with
          | [], _, h2 =>
            exfalso
            rcases h2 with h2 | ⟨h2, _⟩
            · simp [inter_nil] at h2
            · exact h2 rfl
          | [b], h1, h2 =>
            rw [inter_one] at h2
            obtain ⟨hb, hb'⟩ := h1 b (by simp)
            rcases h2 with h2 | ⟨_, h2⟩
            · exact absurd (by rw [← h2]; simp) hb'
            · obtain ⟨e1, e2⟩ := split ha hb' h2
              subst e1 e2
              exact ⟨[], by simp, by simp, Or.inl rfl⟩
          | b :: b' :: p, h1, h2 =>
            rw [inter_cons] at h2
            obtain ⟨hb, hb'⟩ := h1 b (by simp)
            refine ⟨b' :: p, ?_, fun c hc => h1 c (by simp [hc]), ?_⟩
            · rcases h2 with h2 | ⟨_, h2⟩
              · rw [(split ha hb' (by simpa using h2)).1]; simp
              · rw [(split ha hb' (by simpa using h2)).1]; simp
            · rcases h2 with h2 | ⟨_, h2⟩
              · exact Or.inl (split ha hb' (by simpa using h2)).2
              · exact Or.inr ⟨by simp, (split ha hb' (by simpa using h2)).2⟩
termination_by k => k

theorem parseLoop_ends (sep : Byte) : ∀ (k : Nat) (s : Bytes), s.length ≤ k → ∀ items,
    (∃ q, parseLoop sep s items = .ok q) ∨ parseLoop sep s items = .error .err
  | k, s, hk, items => by
    rcases cut sep s with hs | ⟨a, t, rfl, ha⟩
    · by_cases h0 : s = []
      · subst h0; exact Or.inl ⟨_, parseLoop_nil _ _⟩
      · exact Or.inl ⟨_, parseLoop_last sep h0 hs items⟩
    · rw [parseLoop_cut sep ha]
      simp only [List.length_append, List.length_cons] at hk
      obtain ⟨k, rfl⟩ : ∃ j, k = j + 1 := ⟨k - 1, by omega⟩
      by_cases h0 : a = []
      · exact Or.inr (if_pos h0)
      · rw [if_neg h0]; exact parseLoop_ends sep k t (by omega) _
termination_by k => k

theorem toTextLoop_eq (sep : Byte) : ∀ (p : Path) (i : Nat) (acc : Bytes),
    toTextLoop sep i p acc = match p with
      | [] => acc
      | _ :: _ => (if i ≠ 0 then acc ++ [sep] else acc) ++ List.intercalate [sep] p
  | [], _, _ => rfl
  | [a], i, acc => by rw [toTextLoop, toTextLoop, inter_one]
  | a :: b :: p, i, acc => by
    rw [toTextLoop, toTextLoop_eq sep (b :: p)]
    simp only [Nat.succ_ne_zero, ne_eq, not_false_eq_true, if_true, inter_cons, List.append_assoc]

/-! ### Digits -/

theorem isDigit_ok {c : Byte} (h : 48 ≤ c.toNat ∧ c.toNat ≤ 57) : isDigit c = .ok true := by
  unfold isDigit
  rw [if_neg (by rintro ⟨h1, _⟩; omega)]
  simp [h]

theorem allDigits_ok : ∀ {s : Bytes}, Json.Digits s → allDigits s = .ok true
  | [], _ => rfl
  | c :: s, h => by
    rw [allDigits, isDigit_ok (h c (by simp))]
    exact allDigits_ok (fun d hd => h d (by simp [hd]))

theorem allDigits_true : ∀ {s : Bytes}, allDigits s = .ok true → Json.Digits s
  | [], _ => by intro c hc; cases hc
  | c :: s, h => by
    rw [allDigits] at h
    unfold isDigit at h
    by_cases h1 : 0x80 ≤ c.toNat ∧ c ≠ 0xFF
    · rw [if_pos h1] at h; cases h
    · rw [if_neg h1] at h
      by_cases h2 : 48 ≤ c.toNat ∧ c.toNat ≤ 57
      · simp only [h2, and_self, decide_true] at h
        intro d hd
        rcases List.mem_cons.mp hd with rfl | hd
        · exact h2
        · exact allDigits_true h d hd
      · rw [decide_eq_false h2] at h; cases h

/-! ### Order -/

theorem Before.cons {α : Type} {R : α → α → Prop} {x : α} {a b : List α} (h : Before R a b) : Before R (x :: a) (x :: b) := by
  rcases h with ⟨y, s, rfl⟩ | ⟨p, u, v, s, t, rfl, rfl, h⟩
  · exact Or.inl ⟨y, s, rfl⟩
  · exact Or.inr ⟨x :: p, u, v, s, t, rfl, rfl, h⟩

theorem Before.cons_iff {α : Type} {R : α → α → Prop} {x y : α} {a b : List α} :
    Before R (x :: a) (y :: b) ↔ R x y ∨ (x = y ∧ Before R a b) := by
  constructor
  · rintro (⟨z, s, e⟩ | ⟨p, u, v, s, t, e1, e2, h⟩)
    · injection e with e1 e2
      exact Or.inr ⟨e1.symm, Or.inl ⟨z, s, e2⟩⟩
    · cases p with
      | nil => injection e1 with e1 _; injection e2 with e2 _; subst e1 e2; exact Or.inl h
      | cons z p =>
        injection e1 with e1 e1'; injection e2 with e2 e2'
        exact Or.inr ⟨by rw [e1, e2], Or.inr ⟨p, u, v, s, t, e1', e2', h⟩⟩
  · rintro (h | ⟨rfl, h⟩)
    · exact Or.inr ⟨[], x, y, a, b, rfl, rfl, h⟩
    · exact h.cons

theorem Before.nil {α : Type} {R : α → α → Prop} {a : List α} : ¬ Before R a [] := by
  rintro (⟨z, s, e⟩ | ⟨p, u, v, s, t, e1, e2, h⟩)
  · simp at e
  · simp at e2

theorem Before.nil_cons {α : Type} {R : α → α → Prop} {x : α} {a : List α} : Before R [] (x :: a) :=
  Or.inl ⟨x, a, rfl⟩

theorem Before.irrefl {α : Type} {R : α → α → Prop} (h : ∀ x, ¬ R x x) : ∀ a, ¬ Before R a a
  | [] => Before.nil
  | x :: a => by
    rw [Before.cons_iff]
    rintro (h' | ⟨_, h'⟩)
    · exact h x h'
    · exact Before.irrefl h a h'

theorem Before.trans {α : Type} {R : α → α → Prop} (hR : ∀ x y z, R x y → R y z → R x z) :
    ∀ {a b c : List α}, Before R a b → Before R b c → Before R a c
  | _, [], _, h, _ => absurd h Before.nil
  | _, _ :: _, [], _, h => absurd h Before.nil
  | [], _ :: _, _ :: _, _, _ => Before.nil_cons
  | x :: a, y :: b, z :: c, h1, h2 => by
    rw [Before.cons_iff] at h1 h2 ⊢
    rcases h1 with h1 | ⟨rfl, h1⟩ <;> rcases h2 with h2 | ⟨rfl, h2⟩
    · exact Or.inl (hR _ _ _ h1 h2)
    · exact Or.inl h1
    · exact Or.inl h2
    · exact Or.inr ⟨rfl, Before.trans hR h1 h2⟩

theorem Before.total {α : Type} {R : α → α → Prop} (hR : ∀ x y, R x y ∨ x = y ∨ R y x) :
    ∀ a b : List α, Before R a b ∨ a = b ∨ Before R b a
  | [], [] => Or.inr (Or.inl rfl)
  | [], _ :: _ => Or.inl Before.nil_cons
  | _ :: _, [] => Or.inr (Or.inr Before.nil_cons)
  | x :: a, y :: b => by
    rcases hR x y with h | rfl | h
    · exact Or.inl (Before.cons_iff.mpr (Or.inl h))
    · rcases Before.total hR a b with h | rfl | h
      · exact Or.inl h.cons
      · exact Or.inr (Or.inl rfl)
      · exact Or.inr (Or.inr h.cons)
    · exact Or.inr (Or.inr (Before.cons_iff.mpr (Or.inl h)))

theorem StrBefore.irrefl (a : Bytes) : ¬ StrBefore a a := Before.irrefl (fun (x : Byte) => Nat.lt_irrefl x.toNat) a
theorem StrBefore.trans {a b c : Bytes} : StrBefore a b → StrBefore b c → StrBefore a c :=
  Before.trans (R := fun (a b : Byte) => a.toNat < b.toNat) (fun _ _ _ h h' => Nat.lt_trans h h')
theorem StrBefore.total (a b : Bytes) : StrBefore a b ∨ a = b ∨ StrBefore b a := by
  refine Before.total (fun x y => ?_) a b
  rcases Nat.lt_trichotomy x.toNat y.toNat with h | h | h
  · exact Or.inl h
  · exact Or.inr (Or.inl (UInt8.toNat_inj.mp h))
  · exact Or.inr (Or.inr h)

theorem PathBefore.irrefl (a : Path) : ¬ PathBefore a a := Before.irrefl StrBefore.irrefl a
theorem PathBefore.trans {a b c : Path} : PathBefore a b → PathBefore b c → PathBefore a c :=
  Before.trans (R := StrBefore) (fun _ _ _ h h' => StrBefore.trans h h')
theorem PathBefore.total (a b : Path) : PathBefore a b ∨ a = b ∨ PathBefore b a := Before.total StrBefore.total a b

theorem compare_spec : ∀ a b : Bytes, (compare a b = 0 ↔ a = b) ∧ (compare a b < 0 ↔ StrBefore a b)
  | [], [] => ⟨by simp [compare], by simp [compare, StrBefore, Before.nil]⟩
  | [], _ :: _ => ⟨by simp [compare], by simp [compare, StrBefore, Before.nil_cons]⟩
  | _ :: _, [] => ⟨by simp [compare], by simp [compare, StrBefore, Before.nil]⟩
  | x :: a, y :: b => by
    obtain ⟨ih1, ih2⟩ := compare_spec a b
    unfold compare StrBefore
    rw [Before.cons_iff]
    by_cases h1 : x.toNat < y.toNat
    · rw [if_pos h1]
      refine ⟨⟨by intro h; simp at h, by intro h; injection h with h; subst h; omega⟩, ⟨fun _ => Or.inl h1, fun _ => by omega⟩⟩
    · rw [if_neg h1]
      by_cases h2 : y.toNat < x.toNat
      · rw [if_pos h2]
        refine ⟨⟨by intro h; simp at h, by intro h; injection h with h; subst h; omega⟩, ⟨by intro h; simp at h, ?_⟩⟩
        rintro (h | ⟨rfl, _⟩) <;> omega
      · rw [if_neg h2]
        have : x = y := UInt8.toNat_inj.mp (by omega)
        subst this
        refine ⟨by rw [ih1]; simp, ?_⟩
        rw [ih2]
        constructor
        · intro h; exact Or.inr ⟨rfl, h⟩
        · rintro (h | ⟨_, h⟩)
          · omega
          · exact h

theorem ltLoop_spec (p q : Path) : ∀ (pre a b : Path), p = pre ++ a → q = pre ++ b → (ltLoop p q a b = true ↔ PathBefore a b)
  | pre, [], [], hp, hq => by
    unfold ltLoop PathBefore
    simp [hp, hq, Before.nil]
  | pre, [], y :: b, hp, hq => by
    unfold ltLoop PathBefore
    simp [hp, hq, Before.nil_cons]
  | pre, x :: a, [], hp, hq => by
    unfold ltLoop PathBefore
    simp [hp, hq, Before.nil]
  | pre, x :: a, y :: b, hp, hq => by
    obtain ⟨h1, h2⟩ := compare_spec x y
    unfold ltLoop
    simp only
    unfold PathBefore
    rw [Before.cons_iff]
    by_cases hc : compare x y = 0
    · rw [if_pos hc]
      have hxy := h1.mp hc
      subst hxy
      rw [ltLoop_spec p q (pre ++ [x]) a b (by simp [hp]) (by simp [hq])]
      constructor
      · intro h; exact Or.inr ⟨rfl, h⟩
      · rintro (h | ⟨_, h⟩)
        · exact absurd h (StrBefore.irrefl x)
        · exact h
    · rw [if_neg hc, decide_eq_true_iff, h2]
      constructor
      · exact Or.inl
      · rintro (h | ⟨e, _⟩)
        · exact h
        · exact absurd (h1.mpr e) hc

theorem lt_spec (p q : Path) : p.lt q = true ↔ PathBefore p q := ltLoop_spec p q [] p q rfl rfl

end Reflect.Config
