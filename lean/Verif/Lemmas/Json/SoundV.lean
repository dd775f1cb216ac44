import Verif.Lemmas.Json.Sound
import Verif.Lemmas.Json.LoadParse
/- What the parsers of values accepted is a document that loads as the value they made. -/
namespace Reflect.Json

variable {env : Env} {o : ROpts} {c : PCache} {T : TyId → Prop} {s : Bytes} {r : Reader}

/-! ### Scalars -/

theorem dec_of_digits : ∀ {n : Nat} {ds : Bytes}, ds.length = n → Digits ds →
    Dec ds (ds.foldl (fun a d => a * 10 + (d.toNat - 48)) 0) := by
  intro n
  induction n with
  | zero =>
    intro ds h _
    rw [List.length_eq_zero_iff.mp h]; exact Dec.nil
  | succ n ih =>
    intro ds h hd
    have hne : ds ≠ [] := by intro hx; rw [hx] at h; simp at h
    obtain ⟨l, c, rfl⟩ : ∃ l c, ds = l ++ [c] := ⟨ds.dropLast, ds.getLast hne, (List.dropLast_concat_getLast hne).symm⟩
    have h1 := ih (ds := l) (by simp at h; omega) (fun x hx => hd x (by simp [hx]))
    have hc := hd c (by simp)
    have h2 := Dec.snoc l _ (c.toNat - 48) h1 (by omega)
    rw [List.foldl_append]
    simp only [List.foldl_cons, List.foldl_nil]
    have e : UInt8.ofNat (48 + (c.toNat - 48)) = c := by
      have : 48 + (c.toNat - 48) = c.toNat := by omega
      rw [this]; simp
    rw [e] at h2
    rw [Nat.mul_comm]
    exact h2

theorem intVal_of_stol {s : Bytes} {i : Int} (ht : IntText s) (h : stol s = .ok i) : IntVal s i := by
  obtain ⟨c, ds, rfl, hc, hd⟩ := ht
  unfold stol at h
  simp only [List.head?_cons, List.tail_cons, Option.some.injEq] at h
  by_cases hneg : c = 45
  · subst hneg
    simp only [if_true, decide_true] at h
    split at h
    · cases h
    · rename_i hne
      split at h
      · rename_i hr
        injection h with h
        exact ⟨true, ds, _, rfl, hne, dec_of_digits rfl hd, h.symm, h ▸ hr.1, h ▸ hr.2⟩
      · cases h
  · have hcd : Digits (c :: ds) := by
      have hc' := hc.resolve_left hneg
      intro x hx
      rcases List.mem_cons.mp hx with rfl | hx
      · exact hc' _ (by simp)
      · exact hd x hx
    simp only [hneg, decide_false, Bool.false_eq_true, if_false] at h
    split at h
    · cases h
    · split at h
      · rename_i hr
        injection h with h
        exact ⟨false, c :: ds, _, rfl, by simp, dec_of_digits rfl hcd, h.symm, h ▸ hr.1, h ▸ hr.2⟩
      · cases h

theorem parseBool_sound {q : Bool × Reader} (hp : Pos o s r) (h : parseBool r = .ok q) (he : q.2.err = none) :
    ∃ y, Reads o s (JTree.bool q.1).toks y ∧ Ready o y q.2 := by
  unfold parseBool at h
  obtain ⟨p, hp1, h⟩ := bind_ok h
  obtain ⟨b, hb, h⟩ := bind_ok h
  injection h with h; subst h
  obtain ⟨h1, h2⟩ := expect_err hp1 he
  rcases next_sound hp h1 he with ⟨k, _, _⟩ | ⟨v, y, k1, k2, k3⟩
  · rw [k] at h2; cases h2
  · obtain ⟨b', hb'⟩ := (reads_is k1).2.2.2.2.2.2.2.1 h2
    have : b = b' := by
      unfold Token.asBool at hb
      rw [if_pos h2, show p.1 = ⟨.bool, .bool b'⟩ from congrArg Prod.fst hb'] at hb
      injection hb with hb
      rw [← hb]; cases b' <;> rfl
    rw [hb'] at k1
    rw [this]
    exact ⟨y, k1, k2⟩

theorem parseNull_sound {q : Reader} (hp : Pos o s r) (h : parseNull r = .ok q) (he : q.err = none) :
    ∃ y, Reads o s JTree.null.toks y ∧ Ready o y q := by
  unfold parseNull at h
  obtain ⟨p, hp1, h⟩ := bind_ok h
  injection h with h; subst h
  obtain ⟨h1, h2⟩ := expect_err hp1 he
  rcases next_sound hp h1 he with ⟨k, _, _⟩ | ⟨v, y, k1, k2, k3⟩
  · rw [k] at h2; cases h2
  · rw [(reads_is k1).2.2.2.2.2.2.1 h2] at k1
    exact ⟨y, k1, k2⟩

theorem parseInt_sound {q : Int × Reader} (hp : Pos o s r) (h : parseInt r = .ok q) (he : q.2.err = none) :
    ∃ x y, Reads o s (JTree.int x).toks y ∧ Ready o y q.2 ∧ IntVal x q.1 := by
  unfold parseInt at h
  obtain ⟨p, hp1, h⟩ := bind_ok h
  obtain ⟨i, hi, h⟩ := bind_ok h
  injection h with h; subst h
  obtain ⟨h1, h2⟩ := expect_err hp1 he
  rcases next_sound hp h1 he with ⟨k, _, _⟩ | ⟨v, y, k1, k2, k3⟩
  · rw [k] at h2; cases h2
  · obtain ⟨x, hx, hx2⟩ := (reads_is k1).2.2.2.2.2.2.2.2.1 h2
    rw [hx] at k1
    refine ⟨x, y, k1, k2, intVal_of_stol hx2 ?_⟩
    unfold Token.asInt at hi
    rw [if_pos h2, k3 x (congrArg Prod.snd hx)] at hi
    exact hi

theorem parseFloat_sound {q : Bytes × Reader} (hp : Pos o s r) (h : parseFloatText r = .ok q) (he : q.2.err = none) :
    ∃ y, Reads o s (JTree.float q.1).toks y ∧ Ready o y q.2 := by
  unfold parseFloatText at h
  obtain ⟨p, hp1, h⟩ := bind_ok h
  obtain ⟨_, _, h⟩ := bind_ok h
  obtain ⟨x, hx, h⟩ := bind_ok h
  injection h with h; subst h
  have ht : p.1.type = .float := by
    unfold Token.asFloatText at hx
    split at hx
    · assumption
    · cases hx
  have e : (if p.1.type = .int then p.2 else (p.2.assertToken p.1 .float).2) = p.2 := by
    rw [if_neg (by rw [ht]; simp), assertToken_eq _ ht]
  simp only [e] at hx he ⊢
  rcases next_sound hp hp1 he with ⟨k, _, _⟩ | ⟨v, y, k1, k2, k3⟩
  · rw [k] at ht; cases ht
  · obtain ⟨x', hx', hx2⟩ := (reads_is k1).2.2.2.2.2.2.2.2.2.1 ht
    rw [hx'] at k1
    unfold Token.asFloatText at hx
    rw [if_pos ht, k3 x' (congrArg Prod.snd hx')] at hx
    injection hx with hx
    rw [← hx]
    exact ⟨y, k1, k2⟩

theorem parseString_sound {q : Bytes × Reader} (hp : Pos o s r) (h : parseString r = .ok q) (he : q.2.err = none) :
    ∃ y, Reads o s (JTree.str q.1).toks y ∧ Ready o y q.2 := by
  unfold parseString at h
  obtain ⟨p, hp1, h⟩ := bind_ok h
  obtain ⟨x, hx, h⟩ := bind_ok h
  injection h with h; subst h
  obtain ⟨h1, h2⟩ := expect_err hp1 he
  rcases next_sound hp h1 he with ⟨k, _, _⟩ | ⟨v, y, k1, k2, k3⟩
  · rw [k] at h2; cases h2
  · obtain ⟨x', hx'⟩ := (reads_is k1).2.2.2.2.2.2.2.2.2.2 h2
    rw [hx'] at k1
    unfold Token.asString at hx
    rw [if_pos h2, k3 x' (congrArg Prod.snd hx')] at hx
    injection hx with hx
    rw [← hx]
    exact ⟨y, k1, k2⟩

/-! ### Errors stay -/

theorem parseBool_keeps {q : Bool × Reader} (h : parseBool r = .ok q) (he : r.err ≠ none) : q.2.err ≠ none := by
  unfold parseBool at h
  obtain ⟨p, hp1, h⟩ := bind_ok h
  obtain ⟨b, hb, h⟩ := bind_ok h
  injection h with h; subst h
  exact expect_keeps hp1 he

theorem parseInt_keeps {q : Int × Reader} (h : parseInt r = .ok q) (he : r.err ≠ none) : q.2.err ≠ none := by
  unfold parseInt at h
  obtain ⟨p, hp1, h⟩ := bind_ok h
  obtain ⟨b, hb, h⟩ := bind_ok h
  injection h with h; subst h
  exact expect_keeps hp1 he

theorem parseString_keeps {q : Bytes × Reader} (h : parseString r = .ok q) (he : r.err ≠ none) : q.2.err ≠ none := by
  unfold parseString at h
  obtain ⟨p, hp1, h⟩ := bind_ok h
  obtain ⟨b, hb, h⟩ := bind_ok h
  injection h with h; subst h
  exact expect_keeps hp1 he

theorem parseNull_keeps {q : Reader} (h : parseNull r = .ok q) (he : r.err ≠ none) : q.err ≠ none := by
  unfold parseNull at h
  obtain ⟨p, hp1, h⟩ := bind_ok h
  injection h with h; subst h
  exact expect_keeps hp1 he

theorem parseFloat_keeps {q : Bytes × Reader} (h : parseFloatText r = .ok q) (he : r.err ≠ none) : q.2.err ≠ none := by
  unfold parseFloatText at h
  obtain ⟨p, hp1, h⟩ := bind_ok h
  obtain ⟨_, _, h⟩ := bind_ok h
  obtain ⟨b, hb, h⟩ := bind_ok h
  injection h with h; subst h
  have := next_err hp1 he
  simp only
  split
  · exact this
  · unfold Reader.assertToken; split
    · exact this
    · exact Reader.error_err _ _

theorem parseUntyped_keeps {n : Nat} {v0 : JV} {q : JV × Reader} (h : parseUntyped env n v0 r = .ok q) (he : r.err ≠ none) :
    q.2.err ≠ none := by
  cases n with
  | zero => cases h
  | succ n =>
    unfold parseUntyped at h
    obtain ⟨p, hp, h⟩ := bind_ok h
    have h1 := peek_err hp he
    split at h
    · obtain ⟨x, hx, h⟩ := bind_ok h
      injection h with h; subst h; exact parseNull_keeps hx h1
    · obtain ⟨x, hx, h⟩ := bind_ok h
      injection h with h; subst h; exact parseBool_keeps hx h1
    · obtain ⟨x, hx, h⟩ := bind_ok h
      injection h with h; subst h; exact parseInt_keeps hx h1
    · obtain ⟨x, hx, h⟩ := bind_ok h
      obtain ⟨z, hz, h⟩ := bind_ok h
      injection h with h; subst h; exact parseFloat_keeps hx h1
    · obtain ⟨x, hx, h⟩ := bind_ok h
      injection h with h; subst h; exact parseString_keeps hx h1
    · obtain ⟨x, hx, h⟩ := bind_ok h
      have := parseArray_keeps hx h1
      injection h with h; subst h; exact this
    · obtain ⟨x, hx, h⟩ := bind_ok h
      have := parseObject_keeps hx h1
      injection h with h; subst h; exact this
    · injection h with h; subst h; exact Reader.error_err _ _

/-! ### Untyped values -/

theorem chain_elems : ∀ {xs : List JTree} {vs ws : List JV},
    Chain (fun x (vs ws : List JV) => ∃ v, Any env x v ∧ ws = vs ++ [v]) xs vs ws → ∃ us, AnyElems env xs us ∧ ws = vs ++ us := by
  intro xs
  induction xs with
  | nil => intro vs ws h; exact ⟨[], .nil, by have : vs = ws := h; simp [this]⟩
  | cons x xs ih =>
    rintro vs ws ⟨_, ⟨v, h1, rfl⟩, h2⟩
    obtain ⟨us, h3, rfl⟩ := ih h2
    exact ⟨v :: us, .cons x xs v us h1 h3, by simp⟩

theorem chain_members : ∀ {ms : List (Bytes × JTree)} {m m' : List (Bytes × JV)},
    Chain (fun (p : Bytes × JTree) (m m' : List (Bytes × JV)) => ∃ v, Any env p.2 v ∧ m' = mapEmplace m p.1 v) ms m m' →
    AnyMembers env ms m m' := by
  intro ms
  induction ms with
  | nil => intro m m' h; have : m = m' := h; subst this; exact .nil m
  | cons p ms ih =>
    obtain ⟨k, x⟩ := p
    rintro m m' ⟨_, ⟨v, h1, rfl⟩, h2⟩
    exact .cons k x ms v m m' h1 (ih h2)

theorem untyped_sound (env : Env) (o : ROpts) : ∀ (n : Nat) (v0 : JV) (s : Bytes) (r : Reader) (q : JV × Reader), Pos o s r →
    parseUntyped env n v0 r = .ok q → q.2.err = none →
    (∃ x y v, Reads o s (JTree.toks x) y ∧ Ready o y q.2 ∧ Any env x v ∧ q.1 = anyResult x v0 v) ∨
    (∃ x v, Cut o x s ∧ Over q.2 ∧ Any env x v ∧ q.1 = v) := by
  intro n
  induction n with
  | zero => intro v0 s r q _ h; cases h
  | succ n ih =>
    intro v0 s r q hpos h he
    unfold parseUntyped at h
    obtain ⟨p, hp, h⟩ := bind_ok h
    have hpe : p.2.err = none := by
      apply Classical.byContradiction
      intro h1
      have := parseUntyped_keeps (env := env) (n := n + 1) (v0 := v0) (r := p.2) (q := q) (by
        unfold parseUntyped
        have e : p.2.peekToken = .ok p := by
          unfold Reader.peekToken at hp ⊢
          split at hp
          · unfold Reader.checked at hp
            split at hp
            · cases hp
            · injection hp with hp
              subst hp
              have := lexToken_not_noToken r
              rw [if_neg this]
          · rename_i hk
            injection hp with hp; subst hp
            rw [if_neg hk]
        rw [e]; exact h) h1
      exact this he
    have felem : ∀ i : Nat, FnSound o (fun (vs : List JV) r => do
        let q ← parseUntyped env n .void r
        .ok (vs ++ [q.1], q.2)) (fun x vs ws => ∃ v, Any env x v ∧ ws = vs ++ [v]) := by
      intro _ a s r q hpos hq hqe
      obtain ⟨q1, hq1, hq⟩ := bind_ok hq
      injection hq with hq; subst hq
      rcases ih .void s r q1 hpos hq1 hqe with ⟨x, y, v, h1, h2, h3, h4⟩ | ⟨x, v, _, h2, _⟩
      · refine Or.inl ⟨x, y, h1, h2, fun _ => ⟨v, h3, ?_⟩⟩
        rw [h4]; cases h3 <;> rfl
      · exact Or.inr h2
    have fmem : ∀ k : Bytes, FnSound o (fun (m : List (Bytes × JV)) r => do
        let q ← parseUntyped env n .void r
        .ok (mapEmplace m k q.1, q.2)) (fun x => (fun (p : Bytes × JTree) (m m' : List (Bytes × JV)) =>
          ∃ v, Any env p.2 v ∧ m' = mapEmplace m p.1 v) (k, x)) := by
      intro k a s r q hpos hq hqe
      obtain ⟨q1, hq1, hq⟩ := bind_ok hq
      injection hq with hq; subst hq
      rcases ih .void s r q1 hpos hq1 hqe with ⟨x, y, v, h1, h2, h3, h4⟩ | ⟨x, v, _, h2, _⟩
      · refine Or.inl ⟨x, y, h1, h2, fun _ => ⟨v, h3, ?_⟩⟩
        rw [h4]; cases h3 <;> rfl
      · exact Or.inr h2
    rcases peek_sound hpos hp hpe with ⟨k1, _, _⟩ | ⟨v, w, la, s2, rfl, k2, k3, k4, k5, k6⟩
    · rw [k1] at h
      simp only at h
      injection h with h; subst h
      exact absurd he (Reader.error_err _ _)
    have hp2 : Pos o (w ++ la ++ s2) p.2 := Or.inr (Or.inl ⟨_, _, _, _, _, rfl, k2, k3, k4, k5, k6⟩)
    have hty := lexeme_is k3
    split at h
    · obtain ⟨x, hx, h⟩ := bind_ok h
      injection h with h; subst h
      obtain ⟨y, h1, h2⟩ := parseNull_sound hp2 hx he
      exact Or.inl ⟨_, y, _, h1, h2, .null, rfl⟩
    · obtain ⟨x, hx, h⟩ := bind_ok h
      injection h with h; subst h
      obtain ⟨y, h1, h2⟩ := parseBool_sound hp2 hx he
      exact Or.inl ⟨_, y, _, h1, h2, .bool _, rfl⟩
    · obtain ⟨x, hx, h⟩ := bind_ok h
      injection h with h; subst h
      obtain ⟨i, y, h1, h2, h3⟩ := parseInt_sound hp2 hx he
      exact Or.inl ⟨_, y, _, h1, h2, .int _ _ h3, rfl⟩
    · obtain ⟨x, hx, h⟩ := bind_ok h
      obtain ⟨z, hz, h⟩ := bind_ok h
      injection h with h; subst h
      obtain ⟨y, h1, h2⟩ := parseFloat_sound hp2 hx he
      exact Or.inl ⟨_, y, _, h1, h2, .float _ _ hz, rfl⟩
    · obtain ⟨x, hx, h⟩ := bind_ok h
      injection h with h; subst h
      obtain ⟨y, h1, h2⟩ := parseString_sound hp2 hx he
      exact Or.inl ⟨_, y, _, h1, h2, .str _, rfl⟩
    · rename_i ht
      obtain ⟨x, hx, h⟩ := bind_ok h
      injection h with h; subst h
      rcases parseArray_sound felem hp2 hx he with ⟨y, h1, h2, h3⟩ | ⟨xs, y, h1, h2, h3⟩ | ⟨h1, h2, h3⟩
      · exfalso
        have := reads_head_unique h1 (reads_single k2 k3 k4)
        rw [← this] at ht; cases ht
      · obtain ⟨us, h4, h5⟩ := chain_elems h3
        simp only [List.nil_append] at h5
        refine Or.inl ⟨_, y, _, h1, h2, .arr xs us h4, ?_⟩
        rw [h5]; rfl
      · refine Or.inr ⟨_, _, Or.inl ⟨rfl, h1⟩, h2, .arr [] [] .nil, ?_⟩
        rw [h3]
    · rename_i ht
      obtain ⟨x, hx, h⟩ := bind_ok h
      injection h with h; subst h
      rcases parseObject_sound (P := fun (p : Bytes × JTree) (m m' : List (Bytes × JV)) =>
          ∃ v, Any env p.2 v ∧ m' = mapEmplace m p.1 v) fmem (by
          intro k a r q hr hq
          obtain ⟨r1, hr1, hq⟩ := bind_ok hq
          injection hq with hq; subst hq
          exact parseUntyped_keeps hr1 hr) hp2 hx he with ⟨y, h1, h2, h3⟩ | ⟨xs, y, h1, h2, h3⟩ | ⟨h1, h2, h3⟩
      · exfalso
        have := reads_head_unique h1 (reads_single k2 k3 k4)
        rw [← this] at ht; cases ht
      · exact Or.inl ⟨_, y, _, h1, h2, .obj xs _ (chain_members h3), rfl⟩
      · refine Or.inr ⟨_, _, Or.inr ⟨rfl, h1⟩, h2, .obj [] [] (.nil _), ?_⟩
        rw [h3]
    · injection h with h; subst h
      exact absurd he (Reader.error_err _ _)

/-! ### Typed values -/

theorem has_of_exact {ty : TyId} {td : TyD} {sh : Shape} (h : env.Has ty td sh) (he : env.exact ty = true) : td.exact = true := by
  unfold Env.exact at he; rw [h.1] at he; exact he

theorem construct_inv {t : TyId} {d : JV} (h : env.construct t = .ok d) : ∃ ed, env.types[t]? = some ed ∧ ed.make = some d := by
  unfold Env.construct at h
  split at h
  · cases h
  · rename_i ed he
    split at h
    · cases h
    · rename_i v hv
      injection h with h; subst h
      exact ⟨ed, he, hv⟩

theorem allocate_inv {t : TyId} {d : JV} (h : env.allocate t = .ok d) :
    ∃ ed, env.types[t]? = some ed ∧ ed.alloc = true ∧ ed.make = some d := by
  unfold Env.allocate at h
  split at h
  · cases h
  · rename_i ed he
    split at h
    · rename_i ha
      obtain ⟨ed', h1, h2⟩ := construct_inv h
      rw [he] at h1; injection h1 with h1; subst h1
      exact ⟨ed, he, ha, h2⟩
    · cases h

theorem parseV_keeps (hc : Good env c) (hT : env.Closed T) : ∀ (n : Nat) (ty : TyId) (u : JV) (r : Reader) (q : JV × Reader),
    T ty → (Assoc.get c ty).isSome → parseV env c n ty u r = .ok q → r.err ≠ none → q.2.err ≠ none := by
  intro n
  induction n with
  | zero => intro ty u r q _ _ h; cases h
  | succ n ih =>
    intro ty u r q ht hs h he
    obtain ⟨d, sh, hd⟩ := hT.kind ty ht
    obtain ⟨st, g1, g2, g3, g6⟩ := good_get hc hd hs
    unfold parseV at h
    cases sh
    all_goals simp only [g1, g2, Shape.pk] at h
    · obtain ⟨p, hp, h⟩ := bind_ok h
      split at h
      · injection h with h; subst h; exact parseBool_keeps hp he
      · cases h
    · obtain ⟨p, hp, h⟩ := bind_ok h
      split at h
      · injection h with h; subst h; exact parseInt_keeps hp he
      · cases h
    · obtain ⟨p, hp, h⟩ := bind_ok h
      obtain ⟨x, hx, h⟩ := bind_ok h
      split at h
      · injection h with h; subst h; exact parseFloat_keeps hp he
      · cases h
    · obtain ⟨p, hp, h⟩ := bind_ok h
      split at h
      · injection h with h; subst h; exact parseString_keeps hp he
      · cases h
    · rename_i t
      obtain ⟨g4, g5⟩ := g3 t (Or.inl rfl)
      obtain ⟨p, hp, h⟩ := bind_ok h
      have h1 := peek_err hp he
      split at h
      · obtain ⟨x, hx, h⟩ := bind_ok h
        injection h with h; subst h; exact next_err hx h1
      · rw [g4] at h
        cases u with
        | ptr w =>
          simp only at h
          obtain ⟨x, hx, h⟩ := bind_ok h
          have := ih _ _ _ _ (hT.ptr ty d _ ht hd) g5 hx h1
          injection h with h; subst h
          exact this
        | null =>
          simp only at h
          obtain ⟨m, hm, h⟩ := bind_ok h
          obtain ⟨x, hx, h⟩ := bind_ok h
          have := ih _ _ _ _ (hT.ptr ty d _ ht hd) g5 hx h1
          injection h with h; subst h
          exact this
        | _ => cases h
    · split at h
      · obtain ⟨x, hx, h⟩ := bind_ok h
        have := parseArray_keeps hx he
        injection h with h; subst h; exact this
      · obtain ⟨x, hx, h⟩ := bind_ok h
        have := parseArray_keeps hx he
        injection h with h; subst h; exact this
      · cases h
    · split at h
      · obtain ⟨x, hx, h⟩ := bind_ok h
        have := parseObject_keeps hx he
        injection h with h; subst h; exact this
      · obtain ⟨x, hx, h⟩ := bind_ok h
        have := parseObject_keeps hx he
        injection h with h; subst h; exact this
      · cases h
    · exact parseUntyped_keeps h he
    · split at h
      · obtain ⟨x, hx, h⟩ := bind_ok h
        have := parseObject_keeps hx he
        injection h with h; subst h; exact this
      · cases h

theorem chain_list {t : TyId} : ∀ {xs : List JTree} {vs ws : List JV},
    Chain (fun x (vs ws : List JV) => ∃ ed d v, env.types[t]? = some ed ∧ ed.make = some d ∧ Load env t d x v ∧ ws = vs ++ [v]) xs vs ws →
    ∃ us, LoadElems env t xs us ∧ ws = vs ++ us := by
  intro xs
  induction xs with
  | nil => intro vs ws h; exact ⟨[], .nil t, by have : vs = ws := h; simp [this]⟩
  | cons x xs ih =>
    rintro vs ws ⟨_, ⟨ed, d, v, h1, h2, h3, rfl⟩, h4⟩
    obtain ⟨us, h5, rfl⟩ := ih h4
    exact ⟨v :: us, .cons t ed d x xs v us h1 h2 h3 h5, by simp⟩

theorem chain_map {t : TyId} : ∀ {ms : List (Bytes × JTree)} {m m' : List (Bytes × JV)},
    Chain (fun (p : Bytes × JTree) (m m' : List (Bytes × JV)) => ∃ ed d v, env.types[t]? = some ed ∧ ed.make = some d ∧
      Load env t d p.2 v ∧ m' = mapSet m p.1 v) ms m m' → LoadEntries env t ms m m' := by
  intro ms
  induction ms with
  | nil => intro m m' h; have : m = m' := h; subst this; exact .nil t m
  | cons p ms ih =>
    obtain ⟨k, x⟩ := p
    rintro m m' ⟨_, ⟨ed, d, v, h1, h2, h3, rfl⟩, h4⟩
    exact .cons t ed d k x ms v m m' h1 h2 h3 (ih h4)

/-- what one member does to the fields -/
def MemberStep (env : Env) (td : TyD) (p : Bytes × JTree) (fs fs' : List (Bytes × JV)) : Prop :=
  (p.1 ∉ td.keys ∧ fs' = fs) ∨ ∃ f v v', f ∈ td.fields ∧ f.key = some p.1 ∧ Assoc.get fs f.name = some v ∧
    Load env f.type v p.2 v' ∧ fs' = objSet fs f.name v'

theorem chain_obj {td : TyD} : ∀ {ms : List (Bytes × JTree)} {fs fs' : List (Bytes × JV)},
    Chain (MemberStep env td) ms fs fs' → LoadMembers env td ms fs fs' := by
  intro ms
  induction ms with
  | nil => intro m m' h; have : m = m' := h; subst this; exact .nil td m
  | cons p ms ih =>
    obtain ⟨k, x⟩ := p
    rintro m m' ⟨_, h1 | ⟨f, v, v', h1, h2, h3, h4, rfl⟩, h5⟩
    · obtain ⟨h1, rfl⟩ := h1
      exact .unknown td k x ms _ m' h1 (ih h5)
    · exact .known td k f x ms v v' m m' h1 h2 h3 h4 (ih h5)

theorem parseV_sound (hc : Good env c) (hT : env.Closed T) (o : ROpts) : ∀ (n : Nat) (ty : TyId) (u : JV) (s : Bytes) (r : Reader)
    (q : JV × Reader), T ty → (Assoc.get c ty).isSome → Pos o s r → parseV env c n ty u r = .ok q → q.2.err = none →
    (∃ x y, Reads o s (JTree.toks x) y ∧ Ready o y q.2 ∧ Load env ty u x q.1) ∨
    (∃ x, Cut o x s ∧ Over q.2 ∧ Load env ty u x q.1) := by
  intro n
  induction n with
  | zero => intro ty u s r q _ _ _ h; cases h
  | succ n ih =>
    intro ty u s r q ht hs hpos h he
    obtain ⟨d, sh, hd⟩ := hT.kind ty ht
    obtain ⟨st, g1, g2, g3, g6⟩ := good_get hc hd hs
    unfold parseV at h
    cases sh
    all_goals simp only [g1, g2, Shape.pk] at h
    · obtain ⟨p, hp, h⟩ := bind_ok h
      split at h
      · rename_i hx
        injection h with h; subst h
        obtain ⟨y, h1, h2⟩ := parseBool_sound hpos hp he
        exact Or.inl ⟨_, y, h1, h2, .bool ty d u _ hd (has_of_exact hd hx)⟩
      · cases h
    · obtain ⟨p, hp, h⟩ := bind_ok h
      split at h
      · rename_i hx
        injection h with h; subst h
        obtain ⟨i, y, h1, h2, h3⟩ := parseInt_sound hpos hp he
        exact Or.inl ⟨_, y, h1, h2, .int ty d u _ _ hd (has_of_exact hd hx) h3⟩
      · cases h
    · obtain ⟨p, hp, h⟩ := bind_ok h
      obtain ⟨x, hxx, h⟩ := bind_ok h
      split at h
      · rename_i hx
        injection h with h; subst h
        obtain ⟨y, h1, h2⟩ := parseFloat_sound hpos hp he
        exact Or.inl ⟨_, y, h1, h2, .float ty d u _ _ hd (has_of_exact hd hx) hxx⟩
      · cases h
    · obtain ⟨p, hp, h⟩ := bind_ok h
      split at h
      · rename_i hx
        injection h with h; subst h
        obtain ⟨y, h1, h2⟩ := parseString_sound hpos hp he
        exact Or.inl ⟨_, y, h1, h2, .str ty d u _ hd (has_of_exact hd hx)⟩
      · cases h
    · -- pointers
      rename_i t
      obtain ⟨g4, g5⟩ := g3 t (Or.inl rfl)
      have htt := hT.ptr ty d _ ht hd
      obtain ⟨p, hp, h⟩ := bind_ok h
      have hpe : p.2.err = none := by
        apply Classical.byContradiction
        intro h1
        split at h
        · obtain ⟨x, hx, h⟩ := bind_ok h
          injection h with h; subst h; exact next_err hx h1 he
        · rw [g4] at h
          cases u with
          | ptr w =>
            simp only at h
            obtain ⟨x, hx, h⟩ := bind_ok h
            injection h with h; subst h
            exact parseV_keeps hc hT _ _ _ _ _ htt g5 hx h1 he
          | null =>
            simp only at h
            obtain ⟨m, hm, h⟩ := bind_ok h
            obtain ⟨x, hx, h⟩ := bind_ok h
            injection h with h; subst h
            exact parseV_keeps hc hT _ _ _ _ _ htt g5 hx h1 he
          | _ => cases h
      by_cases hnull : p.1.type = .null
      · rw [if_pos hnull] at h
        obtain ⟨x, hx, h⟩ := bind_ok h
        injection h with h; subst h
        rcases peek_sound hpos hp hpe with ⟨k1, _, _⟩ | ⟨v, w, la, s2, rfl, k2, k3, k4, k5, k6⟩
        · rw [k1] at hnull; cases hnull
        · rcases next_sound (Or.inr (Or.inl ⟨_, _, _, _, _, rfl, k2, k3, k4, k5, k6⟩)) hx he with ⟨k1, _, _⟩ | ⟨v', y, b1, b2, _⟩
          · exfalso
            unfold Reader.nextToken at hx
            rw [if_neg (by rw [k5.tok]; exact k5.type)] at hx
            injection hx with hx; subst hx
            simp only [k5.tok] at k1
            rw [hnull] at k1; cases k1
          · have e := reads_head_unique b1 (reads_single k2 k3 k4)
            rw [(reads_is b1).2.2.2.2.2.2.1 (by rw [e]; exact hnull)] at b1
            exact Or.inl ⟨.null, y, b1, b2, .ptrNull ty d t u hd⟩
      · rw [if_neg hnull, g4] at h
        -- what there is is no `null`
        have hne : ∀ x : JTree, (∃ y, Reads o s x.toks y) ∨ Cut o x s → x ≠ .null := by
          rintro x hx rfl
          rcases hx with ⟨y, hx⟩ | ⟨hx, _⟩ | ⟨hx, _⟩
          · rcases peek_sound hpos hp hpe with ⟨k1, k2, _⟩ | ⟨v, w, la, s2, rfl, k2, k3, k4, _, _⟩
            · have hr : Ready o s (Reader.open o s) := ⟨[], (At.open o s).soft⟩
              have e1 := (lex_ready hr hx).1
              rw [(lex_trailing k2 (At.open o s).soft).1] at e1
              exact absurd e1 (by decide)
            · have e := reads_head_unique hx (reads_single k2 k3 k4)
              rw [← e] at hnull
              exact hnull rfl
          · cases hx
          · cases hx
        have hp2 : Pos o s p.2 := by
          rcases peek_sound hpos hp hpe with ⟨_, _, _, k⟩ | ⟨v, w, la, s2, rfl, k2, k3, k4, k5, k6⟩
          · exact k
          · exact Or.inr (Or.inl ⟨_, _, _, _, _, rfl, k2, k3, k4, k5, k6⟩)
        cases u with
        | ptr w =>
          simp only at h
          obtain ⟨x, hx, h⟩ := bind_ok h
          injection h with h; subst h
          rcases ih t w s p.2 x htt g5 hp2 hx he with ⟨z, y, h1, h2, h3⟩ | ⟨z, h1, h2, h3⟩
          · exact Or.inl ⟨z, y, h1, h2, .ptr ty d t w x.1 z hd (hne z (Or.inl ⟨y, h1⟩)) h3⟩
          · exact Or.inr ⟨z, h1, h2, .ptr ty d t w x.1 z hd (hne z (Or.inr h1)) h3⟩
        | null =>
          simp only at h
          obtain ⟨m, hm, h⟩ := bind_ok h
          obtain ⟨x, hx, h⟩ := bind_ok h
          injection h with h; subst h
          obtain ⟨ed, a1, a2, a3⟩ := allocate_inv hm
          rcases ih t m s p.2 x htt g5 hp2 hx he with ⟨z, y, h1, h2, h3⟩ | ⟨z, h1, h2, h3⟩
          · exact Or.inl ⟨z, y, h1, h2, .ptrNew ty d t ed m x.1 z hd (hne z (Or.inl ⟨y, h1⟩)) a1 a2 a3 h3⟩
          · exact Or.inr ⟨z, h1, h2, .ptrNew ty d t ed m x.1 z hd (hne z (Or.inr h1)) a1 a2 a3 h3⟩
        | _ => cases h
    · -- lists
      rename_i t
      obtain ⟨g4, g5⟩ := g3 t (Or.inr (Or.inl rfl))
      have htt := hT.list ty d _ ht hd
      rw [g4] at h
      cases u with
      | list vs =>
        simp only at h
        obtain ⟨x, hx, h⟩ := bind_ok h
        injection h with h; subst h
        have hfn : ∀ i : Nat, FnSound o (listFn env c n t) (fun x vs ws => ∃ ed d v, env.types[t]? = some ed ∧
            ed.make = some d ∧ Load env t d x v ∧ ws = vs ++ [v]) := by
          intro _ a s r q hpos hq hqe
          unfold listFn at hq
          obtain ⟨m, hm, hq⟩ := bind_ok hq
          obtain ⟨q1, hq1, hq⟩ := bind_ok hq
          obtain ⟨ed, m1, m2⟩ := construct_inv hm
          have e2 : q.2 = q1.2 := by split at hq <;> (injection hq with hq; rw [← hq])
          rw [e2] at hqe ⊢
          rcases ih t m s r q1 htt g5 hpos hq1 hqe with ⟨x, y, h1, h2, h3⟩ | ⟨x, _, h2, _⟩
          · refine Or.inl ⟨x, y, h1, h2, fun hy => ⟨ed, m, q1.1, m1, m2, h3, ?_⟩⟩
            obtain ⟨b, hb⟩ := h2
            rw [if_pos (soft_ok hb hy)] at hq
            injection hq with hq; rw [← hq]
          · exact Or.inr h2
        rcases parseArray_sound hfn hpos hx he with ⟨y, h1, h2, h3⟩ | ⟨xs, y, h1, h2, h3⟩ | ⟨h1, h2, h3⟩
        · refine Or.inl ⟨.null, y, h1, h2, ?_⟩
          simp only [h3]
          exact .listNull ty d t vs hd
        · obtain ⟨us, h4, h5⟩ := chain_list h3
          refine Or.inl ⟨_, y, h1, h2, ?_⟩
          simp only [h5]
          exact .list ty d t vs us xs hd h4
        · refine Or.inr ⟨.arr [], Or.inl ⟨rfl, h1⟩, h2, ?_⟩
          have := Load.list ty d t vs [] [] hd (.nil t)
          rw [List.append_nil] at this
          simp only [h3]
          exact this
      | _ => cases h
    · -- maps
      rename_i t
      obtain ⟨g4, g5⟩ := g3 t (Or.inr (Or.inr rfl))
      have htt := hT.map ty d _ ht hd
      rw [g4] at h
      cases u with
      | map m0 =>
        simp only at h
        obtain ⟨x, hx, h⟩ := bind_ok h
        injection h with h; subst h
        have hfn : ∀ k : Bytes, FnSound o (mapFn env c n t k) (fun x => (fun (p : Bytes × JTree) (m m' : List (Bytes × JV)) =>
            ∃ ed d v, env.types[t]? = some ed ∧ ed.make = some d ∧ Load env t d p.2 v ∧ m' = mapSet m p.1 v) (k, x)) := by
          intro k a s r q hpos hq hqe
          unfold mapFn at hq
          obtain ⟨m, hm, hq⟩ := bind_ok hq
          obtain ⟨q1, hq1, hq⟩ := bind_ok hq
          obtain ⟨ed, m1, m2⟩ := construct_inv hm
          have e2 : q.2 = q1.2 := by split at hq <;> (injection hq with hq; rw [← hq])
          rw [e2] at hqe ⊢
          rcases ih t m s r q1 htt g5 hpos hq1 hqe with ⟨x, y, h1, h2, h3⟩ | ⟨x, _, h2, _⟩
          · refine Or.inl ⟨x, y, h1, h2, fun hy => ⟨ed, m, q1.1, m1, m2, h3, ?_⟩⟩
            obtain ⟨b, hb⟩ := h2
            rw [if_pos (soft_ok hb hy)] at hq
            injection hq with hq; rw [← hq]
          · exact Or.inr h2
        have hkeep : ∀ k a r q, r.err ≠ none → mapFn env c n t k a r = .ok q → q.2.err ≠ none := by
          intro k a r q hr hq
          unfold mapFn at hq
          obtain ⟨m, hm, hq⟩ := bind_ok hq
          obtain ⟨q1, hq1, hq⟩ := bind_ok hq
          have e2 : q.2 = q1.2 := by split at hq <;> (injection hq with hq; rw [← hq])
          rw [e2]
          exact parseV_keeps hc hT _ _ _ _ _ htt g5 hq1 hr
        rcases parseObject_sound (P := fun (p : Bytes × JTree) (m m' : List (Bytes × JV)) =>
            ∃ ed d v, env.types[t]? = some ed ∧ ed.make = some d ∧ Load env t d p.2 v ∧ m' = mapSet m p.1 v)
            hfn hkeep hpos hx he with ⟨y, h1, h2, h3⟩ | ⟨xs, y, h1, h2, h3⟩ | ⟨h1, h2, h3⟩
        · refine Or.inl ⟨.null, y, h1, h2, ?_⟩
          simp only [h3]
          exact .mapNull ty d t m0 hd
        · exact Or.inl ⟨_, y, h1, h2, .map ty d t xs m0 _ hd (chain_map h3)⟩
        · refine Or.inr ⟨.obj [], Or.inr ⟨rfl, h1⟩, h2, ?_⟩
          simp only [h3]
          exact .map ty d t [] m0 m0 hd (.nil t m0)
      | _ => cases h
    · -- untyped
      rcases untyped_sound env o n u s r q hpos h he with ⟨x, y, v, h1, h2, h3, h4⟩ | ⟨x, v, h1, h2, h3, h4⟩
      · refine Or.inl ⟨x, y, h1, h2, ?_⟩
        rw [h4]
        cases h3 with
        | null => exact .voidNull ty d u hd
        | bool b => exact .void ty d u _ _ hd (by simp) (.bool b)
        | int a b c => exact .void ty d u _ _ hd (by simp) (.int a b c)
        | float a b c => exact .void ty d u _ _ hd (by simp) (.float a b c)
        | str a => exact .void ty d u _ _ hd (by simp) (.str a)
        | arr a b c => exact .void ty d u _ _ hd (by simp) (.arr a b c)
        | obj a b c => exact .void ty d u _ _ hd (by simp) (.obj a b c)
      · refine Or.inr ⟨x, h1, h2, ?_⟩
        rw [h4]
        refine .void ty d u _ _ hd ?_ h3
        rcases h1 with ⟨rfl, _⟩ | ⟨rfl, _⟩ <;> simp
    · -- objects
      split at h
      · rename_i fs
        obtain ⟨x, hx, h⟩ := bind_ok h
        injection h with h; subst h
        obtain ⟨f1, f2⟩ := g6 rfl
        have hfn : ∀ k : Bytes, FnSound o (objFn env c n st k) (fun x => MemberStep env d (k, x)) := by
          intro k a s r q hpos hq hqe
          unfold objFn at hq
          by_cases hk : k ∈ d.keys
          · obtain ⟨f, hf, hfk⟩ := List.mem_filterMap.mp hk
            obtain ⟨e1, e2, e3⟩ := f1 f hf k hfk
            rw [e1] at hq
            simp only at hq
            rw [e2] at hq
            simp only at hq
            split at hq
            · cases hq
            · rename_i v hv
              obtain ⟨q1, hq1, hq⟩ := bind_ok hq
              injection hq with hq; subst hq
              rcases ih f.type v s r q1 (hT.field ty d f ht hd hf (by rw [hfk]; simp)) e3 hpos hq1 hqe with ⟨x, y, h1, h2, h3⟩ | ⟨x, _, h2, _⟩
              · exact Or.inl ⟨x, y, h1, h2, fun _ => Or.inr ⟨f, v, q1.1, hf, hfk, hv, h3, rfl⟩⟩
              · exact Or.inr h2
          · rw [f2 k hk] at hq
            simp only at hq
            obtain ⟨r1, hr1, hq⟩ := bind_ok hq
            injection hq with hq; subst hq
            rcases skip_sound n s r r1 hpos hr1 hqe with ⟨x, y, h1, h2⟩ | h2
            · exact Or.inl ⟨x, y, h1, h2, fun _ => Or.inl ⟨hk, rfl⟩⟩
            · exact Or.inr h2
        have hkeep : ∀ k a r q, r.err ≠ none → objFn env c n st k a r = .ok q → q.2.err ≠ none := by
          intro k a r q hr hq
          unfold objFn at hq
          by_cases hk : k ∈ d.keys
          · obtain ⟨f, hf, hfk⟩ := List.mem_filterMap.mp hk
            obtain ⟨e1, e2, e3⟩ := f1 f hf k hfk
            rw [e1] at hq
            simp only at hq
            rw [e2] at hq
            simp only at hq
            split at hq
            · cases hq
            · obtain ⟨q1, hq1, hq⟩ := bind_ok hq
              injection hq with hq; subst hq
              exact parseV_keeps hc hT _ _ _ _ _ (hT.field ty d f ht hd hf (by rw [hfk]; simp)) e3 hq1 hr
          · rw [f2 k hk] at hq
            simp only at hq
            obtain ⟨r1, hr1, hq⟩ := bind_ok hq
            injection hq with hq; subst hq
            exact skip_keeps hr1 hr
        rcases parseObject_sound hfn hkeep hpos hx he with ⟨y, h1, h2, h3⟩ | ⟨xs, y, h1, h2, h3⟩ | ⟨h1, h2, h3⟩
        · refine Or.inl ⟨.null, y, h1, h2, ?_⟩
          simp only [h3]
          exact .objNull ty d fs hd
        · exact Or.inl ⟨_, y, h1, h2, .obj ty d xs fs _ hd (chain_obj h3)⟩
        · refine Or.inr ⟨.obj [], Or.inr ⟨rfl, h1⟩, h2, ?_⟩
          simp only [h3]
          exact .obj ty d [] fs fs hd (.nil d fs)
      · cases h

end Reflect.Json
