import Verif.Props.JsonRead
import Verif.Lemmas.Json.CacheW
/-
  C65 a type that the JSON parser or printer has refused is not refused again.
-/
namespace Reflect.Json

/-- Whatever happened to the first call, the second call on the type goes on to parse. -/
theorem C65_second_call_parses (env : Env) (n m : Nat) (c : PCache) (ty : TyId) (d : TyD) (hd : env.types[ty]? = some d)
    (u u' : JV) (r r' : Reader) :
    parse env (m + 1) (parse env (n + 1) c ty u r).2 ty u' r' =
      (parseV env (parse env (n + 1) c ty u r).2 (m + 1) ty u' r', (parse env (n + 1) c ty u r).2) := by
  have e : (parse env (n + 1) c ty u r).2 = (getParser env (n + 1) ty c).2 := by
    unfold parse; simp only; split <;> rfl
  rw [e]
  have hsome : (Assoc.get (getParser env (n + 1) ty c).2 ty).isSome := by
    unfold getParser
    split
    · rename_i st h; simp only [h]; rfl
    · rename_i hnone
      rw [hd]
      have h0 : ∀ st : PState, (Assoc.get (Assoc.set c ty st) ty).isSome := by
        intro st; rw [Assoc.get_set, if_pos rfl]; rfl
      simp only
      split
      · exact h0 _
      · exact h0 _
      · exact h0 _
      · exact h0 _
      · exact h0 _
      · exact (initInner_kept env n ty _ _ _).2 (h0 _)
      · exact (initInner_kept env n ty _ _ _).2 (h0 _)
      · exact (initInner_kept env n ty _ _ _).2 (h0 _)
      · split
        · exact h0 _
        · rw [Assoc.get_set, if_pos rfl]; rfl
      · exact (initFields_kept env n ty _ _ _).2 (h0 _)
  generalize (getParser env (n + 1) ty c).2 = c2 at hsome
  obtain ⟨st, hst⟩ := Option.isSome_iff_exists.mp hsome
  unfold parse
  have : getParser env (m + 1) ty c2 = (.ok (), c2) := by
    unfold getParser; rw [hst]
  rw [this]

/-- fed a document that is an array with elements, `parseArray` makes its first call-back -/
theorem parseArray_first {σ : Type} {o : ROpts} {fn : Nat → σ → Reader → Res (σ × Reader)} {e : Fault}
    (hfn : ∀ i a r, fn i a r = .error e) {x : JTree} {xs : List JTree} {y : Bytes} {r : Reader} (m : Nat) (a : σ)
    (h : Fed o (JTree.arr (x :: xs)).toks y r) : parseArray fn (m + 1) a r = .error e := by
  unfold parseArray
  rw [JTree.toks] at h
  obtain ⟨r1, e1, e2, _⟩ := h.next
  rw [e1, okb, if_neg (by simp)]
  rw [mayAssert_eq r1 (by rfl), okb]
  show ((r1.assertToken _ .arrayStart).2.peekToken >>= _) = _
  rw [assertToken_eq r1 rfl]
  obtain ⟨⟨t0, v0⟩, l, hx, hp⟩ := toks_head x
  have e2' := e2.fed
  obtain ⟨l', hl'⟩ : ∃ l', commas (JTree.elems (x :: xs)) ++ [Tok.rbrack] = (t0, v0) :: l' ∧ l' ≠ [] := by
    rw [elems_map]
    cases xs with
    | nil => exact ⟨l ++ [Tok.rbrack], by simp [commas, hx], by simp⟩
    | cons z zs => exact ⟨l ++ (Tok.comma :: commas ((z :: zs).map JTree.toks)) ++ [Tok.rbrack], by simp [commas, hx], by simp⟩
  rw [hl'.1] at e2'
  obtain ⟨r2, e3, e4, _⟩ := Fed.peek e2'
  rw [e3, okb, if_neg hp]
  unfold arrLoop
  rw [if_pos (e4.ok (.inl hl'.2)), hfn]
  rfl

/-- and `parseObject` on a document that is an object with members -/
theorem parseObject_first {σ : Type} {o : ROpts} {fn : Bytes → σ → Reader → Res (σ × Reader)} {e : Fault}
    (hfn : ∀ k a r, fn k a r = .error e) {k : Bytes} {x : JTree} {ms : List (Bytes × JTree)} {y : Bytes} {r : Reader} (m : Nat) (a : σ)
    (h : Fed o (JTree.obj ((k, x) :: ms)).toks y r) : parseObject fn (m + 1) a r = .error e := by
  unfold parseObject
  rw [JTree.toks] at h
  obtain ⟨r1, e1, e2, _⟩ := h.next
  rw [e1, okb, if_neg (by simp)]
  rw [mayAssert_eq r1 (by rfl), okb]
  show ((r1.assertToken _ .objectStart).2.peekToken >>= _) = _
  rw [assertToken_eq r1 rfl]
  have e2' := e2.fed
  obtain ⟨l', hl'⟩ : ∃ l', commas (JTree.members ((k, x) :: ms)) ++ [Tok.rbrace] = Tok.str k :: Tok.colon :: l' ∧ l' ≠ [] := by
    rw [members_map]
    cases ms with
    | nil => exact ⟨x.toks ++ [Tok.rbrace], by simp [commas], by simp⟩
    | cons z zs => exact ⟨x.toks ++ (Tok.comma :: commas ((z :: zs).map fun m => Tok.str m.1 :: Tok.colon :: m.2.toks)) ++ [Tok.rbrace],
        by simp [commas], by simp⟩
  rw [hl'.1] at e2'
  obtain ⟨r2, e3, e4, _⟩ := Fed.peek e2'
  rw [e3, okb, if_neg (fun h => TokType.noConfusion h)]
  unfold objLoop
  rw [if_pos (e4.ok (.inl (by simp)))]
  obtain ⟨r3, e5, e6, _⟩ := e4.expect (x := .string) rfl
  rw [e5, okb]
  obtain ⟨r4, e7, e8⟩ := FedR.expect_colon e6
  simp only [Token.asString, okb]
  rw [e7, okb, hfn]
  rfl

/-- the state in which the type is left when its element, value or pointed-to type is refused -/
theorem refused_inner {env : Env} {n : Nat} {c : PCache} {ty t : TyId} {d : TyD} {k : PKind}
    (hd : env.types[ty]? = some d) (hk : d.parserKind = k) (hc : Assoc.get c ty = none)
    (hi : (k = .pointer ∧ d.pointee = some t) ∨ ((k = .map ∨ k = .list) ∧ d.valueType = some t))
    (hbad : (getParser env n t (Assoc.set c ty { kind := k })).1 = .error .err) (u : JV) (r : Reader) :
    (parse env (n + 1) c ty u r).1 = .error .err ∧ Assoc.get (parse env (n + 1) c ty u r).2 ty = some { kind := k } := by
  have hg : getParser env (n + 1) ty c = (.error .err, (getParser env n t (Assoc.set c ty { kind := k })).2) := by
    generalize hq : getParser env n t (Assoc.set c ty { kind := k }) = q at hbad
    unfold getParser
    rw [hc]
    simp only [hd, hk]
    rcases hi with ⟨rfl, hv⟩ | ⟨rfl | rfl, hv⟩ <;> simp only [hv] <;> unfold initInner <;> simp only [hq, hbad]
  have e : (parse env (n + 1) c ty u r) = (.error .err, (getParser env n t (Assoc.set c ty { kind := k })).2) := by
    unfold parse; rw [hg]
  refine ⟨by rw [e], ?_⟩
  rw [e]
  apply getParser_kept
  rw [Assoc.get_set, if_pos rfl]

/-- A list of elements of a type that is refused: the first call raises.  The second - on any list - is undefined
if the document is an array with elements; an empty array is accepted. -/
theorem C65_list_of_refused (env : Env) (n m : Nat) (c : PCache) (ty t : TyId) (d : TyD) (hd : env.Has ty d (.list t))
    (hc : Assoc.get c ty = none) (hbad : (getParser env n t (Assoc.set c ty { kind := .list })).1 = .error .err)
    (u : JV) (vs : List JV) (r : Reader) (ro : ROpts) (xs : List JTree) (s y : Bytes) (hs : Reads ro s (JTree.arr xs).toks y) :
    (parse env (n + 1) c ty u r).1 = .error .err ∧
      (xs ≠ [] → (parse env (m + 2) (parse env (n + 1) c ty u r).2 ty (.list vs) (Reader.open ro s)).1 = .error .ub) ∧
      (xs = [] → ∃ r', (parse env (m + 2) (parse env (n + 1) c ty u r).2 ty (.list vs) (Reader.open ro s)).1 = .ok (.list vs, r') ∧
        r'.err = none ∧ r'.rest = y) := by
  have hv : d.valueType = some t := by
    cases hd.2 with | list _ _ h => exact h
  obtain ⟨h1, hst⟩ := refused_inner (k := .list) hd.1 (by rw [is_parserKind hd.2]; rfl) hc (.inr ⟨.inr rfl, hv⟩) hbad u r
  have hf : Fed ro (JTree.arr xs).toks y (Reader.open ro s) := (FedR.open hs).fed
  refine ⟨h1, ?_, ?_⟩
  · intro hx
    rw [C65_second_call_parses env n (m + 1) c ty d hd.1]
    simp only
    unfold parseV
    simp only [hst]
    cases xs with
    | nil => exact absurd rfl hx
    | cons x xs => rw [parseArray_first (by intro _ _ _; rfl) m vs hf]; rfl
  · rintro rfl
    rw [C65_second_call_parses env n (m + 1) c ty d hd.1]
    simp only
    unfold parseV
    simp only [hst]
    obtain ⟨a', r', g1, g2, g3⟩ := parseArray_fed (α := JTree) (tk := JTree.toks) (I := fun l a => a = vs)
      (fn := fun _ (_ : List JV) _ => (.error .ub : Res (List JV × Reader))) [] (m + 1) vs (Reader.open ro s) (ts := [])
      (by intro x xs' i a r ts hx; simp at hx) (by simp) (by simp) rfl
      (by rw [JTree.toks] at hf; simpa [JTree.elems, commas] using hf)
    rw [g1, okb]
    subst g3
    exact ⟨r', rfl, g2.err, g2.rest⟩

/-- The same of maps: the empty object is accepted. -/
theorem C65_map_of_refused (env : Env) (n m : Nat) (c : PCache) (ty t : TyId) (d : TyD) (hd : env.Has ty d (.map t))
    (hc : Assoc.get c ty = none) (hbad : (getParser env n t (Assoc.set c ty { kind := .map })).1 = .error .err)
    (u : JV) (vs : List (Bytes × JV)) (r : Reader) (ro : ROpts) (ms : List (Bytes × JTree)) (s y : Bytes)
    (hs : Reads ro s (JTree.obj ms).toks y) :
    (parse env (n + 1) c ty u r).1 = .error .err ∧
      (ms ≠ [] → (parse env (m + 2) (parse env (n + 1) c ty u r).2 ty (.map vs) (Reader.open ro s)).1 = .error .ub) ∧
      (ms = [] → ∃ r', (parse env (m + 2) (parse env (n + 1) c ty u r).2 ty (.map vs) (Reader.open ro s)).1 = .ok (.map vs, r') ∧
        r'.err = none ∧ r'.rest = y) := by
  have hv : d.valueType = some t := by
    cases hd.2 with | map _ _ h => exact h
  obtain ⟨h1, hst⟩ := refused_inner (k := .map) hd.1 (by rw [is_parserKind hd.2]; rfl) hc (.inr ⟨.inl rfl, hv⟩) hbad u r
  have hf : Fed ro (JTree.obj ms).toks y (Reader.open ro s) := (FedR.open hs).fed
  refine ⟨h1, ?_, ?_⟩
  · intro hx
    rw [C65_second_call_parses env n (m + 1) c ty d hd.1]
    simp only
    unfold parseV
    simp only [hst]
    cases ms with
    | nil => exact absurd rfl hx
    | cons x xs => rw [parseObject_first (by intro _ _ _; rfl) m vs hf]; rfl
  · rintro rfl
    rw [C65_second_call_parses env n (m + 1) c ty d hd.1]
    simp only
    unfold parseV
    simp only [hst]
    obtain ⟨a', r', g1, g2, g3⟩ := parseObject_fed (α := JTree) (key := fun _ => []) (tk := JTree.toks) (I := fun l a => a = vs)
      (fn := fun _ (_ : List (Bytes × JV)) _ => (.error .ub : Res (List (Bytes × JV) × Reader))) [] (m + 1) vs (Reader.open ro s) (ts := [])
      (by intro x xs' a r ts hx; simp at hx) (by simp) rfl
      (by rw [JTree.toks] at hf; simpa [JTree.members, commas] using hf)
    rw [g1, okb]
    subst g3
    exact ⟨r', rfl, g2.err, g2.rest⟩

/-- And of pointers: the second call is undefined on every document but `null`. -/
theorem C65_pointer_to_refused (env : Env) (n m : Nat) (c : PCache) (ty t : TyId) (d : TyD) (hd : env.Has ty d (.ptr t))
    (hc : Assoc.get c ty = none) (hbad : (getParser env n t (Assoc.set c ty { kind := .pointer })).1 = .error .err)
    (u v : JV) (r : Reader) (ro : ROpts) (x : JTree) (s y : Bytes) (hs : Reads ro s x.toks y) :
    (parse env (n + 1) c ty u r).1 = .error .err ∧
      (x ≠ .null → (parse env (m + 1) (parse env (n + 1) c ty u r).2 ty v (Reader.open ro s)).1 = .error .ub) := by
  have hv : d.pointee = some t := by
    cases hd.2 with | ptr _ _ h => exact h
  obtain ⟨h1, hst⟩ := refused_inner (k := .pointer) hd.1 (by rw [is_parserKind hd.2]; rfl) hc (.inl ⟨rfl, hv⟩) hbad u r
  have hf : Fed ro (x.toks ++ []) y (Reader.open ro s) := by simpa using (FedR.open hs).fed
  refine ⟨h1, fun hx => ?_⟩
  rw [C65_second_call_parses env n m c ty d hd.1]
  simp only
  unfold parseV
  simp only [hst]
  obtain ⟨p, r1, g1, g2, g3⟩ := peek_not_null hx hf
  rw [g1, okb, if_neg g2]

/-- The same of the printer, on lists that are not empty; the empty list is printed. -/
theorem C65_printing_list_of_refused (env : Env) (n m : Nat) (c : WCache) (ty t : TyId) (d : TyD) (hd : env.Has ty d (.list t))
    (hc : Assoc.get c ty = none) (hbad : (getPrinter env n t (Assoc.set c ty { kind := .list })).1 = .error .err)
    (u x : JV) (vs : List JV) (w w' : Writer) :
    (print env (n + 1) c ty u w).1 = .error .err ∧
      (print env (m + 1) (print env (n + 1) c ty u w).2 ty (.list (x :: vs)) w').1 = .error .ub ∧
      (print env (m + 1) (print env (n + 1) c ty u w).2 ty (.list []) w').1 = printArray (fun _ w => .ok w) ([] : List JV) w' := by
  have hk : d.printerKind = some .list := by
    cases hd.2 with
    | list _ h _ =>
      simp only [TyD.flags, List.cons.injEq, and_true] at h
      obtain ⟨a1, a2, a3, a4, a5, a6, a7, a8⟩ := h
      unfold TyD.printerKind
      rw [a1, a2, a3, a4, a5, a6, a7]
      rfl
  have hv : d.valueType = some t := by
    cases hd.2 with | list _ _ h => exact h
  have hg : getPrinter env (n + 1) ty c = (.error .err, (getPrinter env n t (Assoc.set c ty { kind := .list })).2) := by
    generalize hq : getPrinter env n t (Assoc.set c ty { kind := .list }) = q at hbad
    unfold getPrinter
    rw [hc]
    simp only [hd.1, hk]
    unfold initInnerW
    simp only [hv, hq, hbad]
  have e : (print env (n + 1) c ty u w) = (.error .err, (getPrinter env n t (Assoc.set c ty { kind := .list })).2) := by
    unfold print; rw [hg]
  rw [e]
  have hst : Assoc.get (getPrinter env n t (Assoc.set c ty { kind := .list })).2 ty = some { kind := .list } := by
    apply getPrinter_kept
    rw [Assoc.get_set, if_pos rfl]
  generalize (getPrinter env n t (Assoc.set c ty { kind := .list })).2 = c2 at hst
  have hg2 : getPrinter env (m + 1) ty c2 = (.ok (), c2) := by
    unfold getPrinter; rw [hst]
  refine ⟨rfl, ?_, ?_⟩
  · unfold print
    rw [hg2]
    simp only
    unfold printV
    simp [hst]
  · unfold print
    rw [hg2]
    simp only
    unfold printV
    simp [hst]

/-! An object type two of whose fields, `a` and `b`, have the same key `a`, and a third field `c`. -/
namespace Ex2

def tInt : TyD := { isInt := true, make := some (.int 0), alloc := true }
def tBad : TyD :=
  { fields := [⟨[97], 0, none⟩, ⟨[98], 0, some (.mkAlias [97])⟩, ⟨[99], 0, none⟩],
    make := some (.obj [([97], .int 0), ([98], .int 0), ([99], .int 0)]), alloc := true }
def tList : TyD := { isList := true, valueType := some 1, make := some (.list []), alloc := true }
def env : Env := { types := [tInt, tBad, tList], fmtG := fun _ => [], stod := fun _ => .ok 0 }

/-- the parser of the object type as it is left in the cache -/
def left : PCache := Assoc.set (Assoc.set (Assoc.set (Assoc.set [] 1 { kind := .object })
  1 { kind := .object, keys := [([97], [97])] }) 0 { kind := .int })
  1 { kind := .object, keys := [([97], [97])], fields := [([97], 0)] }

theorem refused : getParser env 5 1 [] = (.error .err, left) := by
  simp [getParser, initFields, env, tBad, tInt, TyD.parserKind, TyD.customParser, FieldD.alias?, Assoc.get, Assoc.set, Assoc.erase, Assoc.emplace, Traits.mkAlias, Traits.new, left]

/-- `{"a":1,"c":5}` -/
def text : Bytes := [123, 34, 97, 34, 58, 49, 44, 34, 99, 34, 58, 53, 125]

/-- The first call raises; the second reads the field `a` and silently ignores `c`. -/
theorem C65_fields_lost (u : JV) (r : Reader) : (parse env 5 [] 1 u r).1 = .error .err ∧
    ∃ r', (parse env 5 (parse env 5 [] 1 u r).2 1 (.obj [([97], .int 0), ([98], .int 0), ([99], .int 0)])
        (Reader.open ROpts.default text)).1 = .ok (.obj [([97], .int 1), ([98], .int 0), ([99], .int 0)], r') ∧ r'.err = none := by
  have e : parse env 5 [] 1 u r = (.error .err, left) := by unfold parse; rw [refused]
  refine ⟨by rw [e], ?_⟩
  rw [C65_second_call_parses env 4 4 [] 1 tBad rfl, e]
  obtain ⟨⟨v, r'⟩, h1, h2⟩ := Res.run (x := parseV env left 5 1 (.obj [([97], .int 0), ([98], .int 0), ([99], .int 0)])
    (Reader.open ROpts.default text)) (fun p => p.1 == .obj [([97], .int 1), ([98], .int 0), ([99], .int 0)] && p.2.err.isNone) (by decide +kernel)
  simp only [Bool.and_eq_true, beq_iff_eq, Option.isNone_iff_eq_none] at h2
  exact ⟨r', by simp only [h1, h2.1], h2.2⟩

/-- `C65_list_of_refused` applies to lists of it. -/
example : env.Has 2 tList (.list 1) ∧ (getParser env 5 1 (Assoc.set [] 2 { kind := .list })).1 = .error .err := by
  refine ⟨⟨rfl, .list 1 rfl rfl⟩, ?_⟩
  simp [getParser, initFields, env, tBad, tInt, TyD.parserKind, TyD.customParser, FieldD.alias?, Assoc.get, Assoc.set,
    Assoc.erase, Assoc.emplace, Traits.mkAlias, Traits.new]

/-- The same environment with a map of it and a pointer to it. -/
def env3 : Env := { env with types := [tInt, tBad, tList, { isMap := true, valueType := some 1, make := some (.map []), alloc := true },
  { pointee := some 1, make := some .null, alloc := true }] }

/-- `C65_map_of_refused` and `C65_pointer_to_refused` apply to them. -/
example : (∃ d, env3.Has 3 d (.map 1)) ∧ (getParser env3 5 1 (Assoc.set [] 3 { kind := .map })).1 = .error .err ∧
    (∃ d, env3.Has 4 d (.ptr 1)) ∧ (getParser env3 5 1 (Assoc.set [] 4 { kind := .pointer })).1 = .error .err := by
  refine ⟨⟨_, rfl, .map 1 rfl rfl⟩, ?_, ⟨_, rfl, .ptr 1 rfl rfl⟩, ?_⟩ <;>
  simp [getParser, initFields, env3, env, tBad, tInt, TyD.parserKind, TyD.customParser, FieldD.alias?, Assoc.get, Assoc.set,
    Assoc.erase, Assoc.emplace, Traits.mkAlias, Traits.new]

/-- and `C65_printing_list_of_refused` to lists of `void` -/
example : (getPrinter { types := [{ isVoid := true }], fmtG := fun _ => [], stod := fun _ => .ok 0 } 5 0
    (Assoc.set [] 1 { kind := .list })).1 = .error .err := by
  simp [getPrinter, TyD.printerKind, TyD.customPrinter, Assoc.get, Assoc.set, Assoc.erase]

end Ex2

end Reflect.Json
