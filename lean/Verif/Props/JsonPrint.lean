import Verif.Lemmas.Json.Out
import Verif.Lemmas.Json.Members
import Verif.Props.JsonRound
/-
  C46 printed text is well-formed JSON; C52 the output depends on indeterminate data; C53 each member is
  printed once; C54 compact output; C55 indentation.
-/
namespace Reflect.Json

/-! ### C46 -/

/-- the `double`s of a value are printed as numbers: neither infinite nor "not a number" -/
def Numbers (env : Env) (v : JV) : Prop := ∀ x ∈ v.floats, IntGram (env.fmtG x) ∨ FloatGram (env.fmtG x)

/-- Whatever is printed without a reported error is the text of the value's document; if its strings are
printable, it is a JSON text. -/
theorem C46_grammar (env : Env) (hn : env.Named) (hsh : env.Shaped) (cw : WCache) (hw : Printers env cw) (wo : WOpts)
    (ty : TyId) (v : JV) (hF : Numbers env v) (n : Nat) (w : Writer)
    (h : (print env n cw ty v (Writer.new wo)).1 = .ok w) (he : w.err = none) :
    ∃ x, Doc env wo.compact ty v x ∧ Gram (Stands wo) x w.out ∧ ((∀ s ∈ x.strs, Printable s) → Grammatical w.out) := by
  obtain ⟨x, body, h1, h2, h3⟩ := print_text hn hsh (printers_good hn hw) h he hF
  have hout : w.out = body := by rw [h1]; simp [Writer.push]
  rw [hout]
  have hg := Gram.mono (S' := Stands wo) h3 (fun m _ t ht => ftext_stands ht)
  refine ⟨x, h2, hg, fun hp => ?_⟩
  refine ⟨x, [], body, [], by simp, ws_nil, ws_nil, ?_⟩
  exact Gram.mono hg (fun m hm t ht => ht.1 (hp m hm))

/-- Whatever the layout and the encoding of strings, the text is that of the same document. -/
theorem C46_layouts (env : Env) (hn : env.Named) (hsh : env.Shaped) (cw cw' : WCache) (hw : Printers env cw)
    (hw' : Printers env cw') (wo wo' : WOpts) (hc : wo.compact = wo'.compact)
    (ty : TyId) (v : JV) (hF : Numbers env v) (n n' : Nat) (w w' : Writer)
    (h : (print env n cw ty v (Writer.new wo)).1 = .ok w) (he : w.err = none)
    (h' : (print env n' cw' ty v (Writer.new wo')).1 = .ok w') (he' : w'.err = none) :
    ∃ x, Gram (Stands wo) x w.out ∧ Gram (Stands wo') x w'.out := by
  obtain ⟨x, h1, h2, _⟩ := C46_grammar env hn hsh cw hw wo ty v hF n w h he
  obtain ⟨x', g1, g2, _⟩ := C46_grammar env hn hsh cw' hw' wo' ty v hF n' w' h' he'
  rw [← hc] at g1
  rw [doc_fun h1 g1] at h2
  exact ⟨x', h2, g2⟩

/-- A control character without an escape of its own is printed bare, without an error: the text is not
JSON. -/
theorem C46_bare_control (wo : WOpts) (c : Byte) (h : c.toNat < 0x20) (hc : c ∉ ([8, 9, 10, 12, 13] : Bytes)) :
    ∃ w, formatString (Writer.new wo) [c] = .ok w ∧ w.err = none ∧ w.out = [34, c, 34] ∧ ¬ Grammatical w.out := by
  have he : escapeChar c = [c] := by
    have key : ∀ b : Byte, b.toNat < 0x20 → b ∉ ([8, 9, 10, 12, 13] : Bytes) → escapeChar b = [b] := by
      apply forall_byte; decide +kernel
    exact key c h hc
  have hf : FText wo [c] [c] := by
    have := FText.ascii (wo := wo) c [] [] (by omega) FText.nil
    rwa [he] at this
  refine ⟨_, formatString_complete hf rfl rfl, rfl, rfl, ?_⟩
  exact control_not_grammatical h

example : ∃ c : Byte, c.toNat < 0x20 ∧ c ∉ ([8, 9, 10, 12, 13] : Bytes) := ⟨1, by decide, by decide⟩

/-- An infinite `double`, whose text is `inf`, is printed as such, without an error: the text is not JSON. -/
theorem C46_infinity (env : Env) (hn : env.Named) (T : TyId → Prop) (hT : env.Closed T)
    (hv : ∀ ty d, T ty → ¬ env.Has ty d .void) (cw : WCache) (hw : Printers env cw) (wo : WOpts) (ty : TyId) (ht : T ty)
    (d : TyD) (hd : env.Has ty d .float) (he : d.exact = true) (x : UInt64) (hx : env.fmtG x = [105, 110, 102]) :
    ∃ n0, ∀ n, n0 ≤ n → ∃ w, (print env n cw ty (.flt x) (Writer.new wo)).1 = .ok w ∧ w.err = none ∧
      w.out = [105, 110, 102] ∧ ¬ Grammatical w.out := by
  obtain ⟨n1, c1, g1, g2, g3⟩ := print_ready hn hT hv ht (printers_good hn hw)
  refine ⟨n1 + 1, fun n hn' => ?_⟩
  rw [g3 n (by omega)]
  obtain ⟨n, rfl⟩ : ∃ k, n = k + 1 := ⟨n - 1, by omega⟩
  obtain ⟨st, h1, h2, _⟩ := goodW_get g1 hd g2
  injection h2 with h2
  unfold printV
  simp only [h1, ← h2]
  rw [if_pos (exact_has hd he), hx]
  refine ⟨_, rfl, rfl, rfl, ?_⟩
  refine not_grammatical (by decide) ?_
  rintro (h | h)
  · revert h; decide
  · exact absurd (h 105 (by simp)) (by decide)

/-! ### C53 -/

/-- Printing an object: the members are strictly ordered by key, and there is exactly one for each field that
is not skipped - under its alias if it has one, with the document of its value - unless it is empty and to be
left out. -/
theorem C53_members (env : Env) (hn : env.Named) (hsh : env.Shaped) (cw : WCache) (hw : Printers env cw) (wo : WOpts)
    (ty : TyId) (d : TyD) (hd : env.Has ty d .object) (hk : d.keys.Nodup) (fs : List (Bytes × JV))
    (hF : Numbers env (.obj fs)) (n : Nat) (w : Writer)
    (h : (print env n cw ty (.obj fs) (Writer.new wo)).1 = .ok w) (he : w.err = none) :
    ∃ ms, Gram (Stands wo) (.obj ms) w.out ∧ (ms.map (·.1)).Pairwise (fun a b => bytesLt a b = true) ∧
      ∀ a x, (a, x) ∈ ms ↔ ∃ f v, f ∈ d.fields ∧ f.key = some a ∧ Assoc.get fs f.name = some v ∧
        ¬ ((wo.compact = true ∨ env.Skips ty d a) ∧ Empty env f.type v) ∧ Doc env wo.compact f.type v x := by
  obtain ⟨x, h1, h2, _⟩ := C46_grammar env hn hsh cw hw wo ty _ hF n w h he
  obtain ⟨l, ms, rfl, h3, h4⟩ := doc_obj_inv hd h1
  refine ⟨ms, h2, ?_, ?_⟩
  · exact (strict_of_sorted h3.2.1 (h3.1.nodup_iff.mpr hk)).sublist (docFields_sub h4)
  · intro a x
    rw [docFields_mem h4 a x]
    constructor
    · rintro ⟨f, v, g1, g2⟩
      obtain ⟨e1, e2⟩ := (listing_mem h3 hk a f).mp g1
      exact ⟨f, v, e1, e2, g2⟩
    · rintro ⟨f, v, e1, e2, g2⟩
      exact ⟨f, v, (listing_mem h3 hk a f).mpr ⟨e1, e2⟩, g2⟩

/-- In particular, if nothing is left out there is one member for each field that is not skipped. -/
theorem C53_all_members (env : Env) (hn : env.Named) (hsh : env.Shaped) (cw : WCache) (hw : Printers env cw) (wo : WOpts)
    (hc : wo.compact = false) (ty : TyId) (d : TyD) (hd : env.Has ty d .object) (hs : ∀ a, ¬ env.Skips ty d a)
    (fs : List (Bytes × JV)) (hF : Numbers env (.obj fs)) (n : Nat) (w : Writer)
    (h : (print env n cw ty (.obj fs) (Writer.new wo)).1 = .ok w) (he : w.err = none) :
    ∃ ms, Gram (Stands wo) (.obj ms) w.out ∧ (ms.map (·.1)).Perm d.keys ∧ Sorted (ms.map (·.1)) ∧
      ∀ a x, (a, x) ∈ ms → ∃ f v, d.LastWith a f ∧ Assoc.get fs f.name = some v ∧ Doc env wo.compact f.type v x := by
  obtain ⟨x, h1, h2, h5⟩ := C46_grammar env hn hsh cw hw wo ty _ hF n w h he
  obtain ⟨l, ms, rfl, h3, h4⟩ := doc_obj_inv hd h1
  have key : ms.map (·.1) = l.map (·.1) := by
    clear h5 h3 h2 h1 h he hF
    rw [hc] at h4
    induction l generalizing ms with
    | nil => cases h4; rfl
    | cons p l ih =>
      cases h4 with
      | shown _ _ _ _ _ v x _ ms' g1 g2 g3 g4 =>
        have := ih ms' g4
        simp [this]
      | omitted _ _ _ a f v _ _ g1 g2 g3 g4 =>
        rcases g2 with g2 | g2
        · cases g2
        · exact absurd g2 (hs _)
  refine ⟨ms, h2, by rw [key]; exact h3.1, by rw [key]; exact h3.2.1, ?_⟩
  intro a x hm
  obtain ⟨f, v, g1, g2, _, g4⟩ := (docFields_mem h4 a x).mp hm
  exact ⟨f, v, h3.2.2 _ g1, g2, g4⟩

/-- A type two of whose fields have the same key has no parser: parsing a value of it never succeeds. -/
theorem C53_collision_refused (env : Env) (hn : env.Named) (cr : PCache) (hr : Parsers env cr) (ty : TyId) (d : TyD)
    (hd : env.Has ty d .object) (hk : ¬ d.keys.Nodup) (n : Nat) (v : JV) (r : Reader) (p : JV × Reader) :
    (parse env n cr ty v r).1 ≠ .ok p := by
  intro h
  unfold parse at h
  cases hp : getParser env n ty cr with
  | mk a c' =>
    rw [hp] at h
    cases a with
    | error e => cases h
    | ok _ =>
      obtain ⟨g1, g2⟩ := getParser_Good hn hp (parsers_good hn hr)
      exact hk (good_keys hn g1 hd g2)

namespace Ex

/-- two fields `x`, `y`, the second under the alias `x` -/
def clash : TyD := { fields := [⟨[120], 0, none⟩, ⟨[121], 0, some (.mkAlias [120])⟩] }
def clashEnv : Env := { types := [tInt, clash], fmtG := fun _ => [48], stod := fun _ => .ok 0 }

/-- the printers made for it -/
def clashCache : WCache :=
  [(1, { kind := .object, sortedKeys := [[120], [120]], keys := [([120], [121])], fields := [([121], 0), ([120], 0)] }),
   (0, { kind := .int })]

/-- With colliding aliases the last field is printed in the place of each: `{"x":2,"x":2}`; one field is
lost. -/
theorem C53_collision_printed : ∃ w, (print clashEnv 5 [] 1 (.obj [([120], .int 1), ([121], .int 2)]) (Writer.new WOpts.default)).1 = .ok w ∧
    w.err = none ∧ w.out = [123, 34, 120, 34, 58, 50, 44, 34, 120, 34, 58, 50, 125] := by
  have hg : getPrinter clashEnv 5 1 [] = (.ok (), clashCache) := by
    simp [getPrinter, initFieldsW, clashEnv, clash, tInt, TyD.printerKind, TyD.customPrinter, Assoc.get, Assoc.set, Assoc.erase, Assoc.emplace, clashCache,
      FieldD.alias?, Traits.mkAlias, Traits.new, Env.skipEmpty, CBool.read, sortKeys, insertKey, bytesLt]
  unfold print
  rw [hg]
  obtain ⟨w, h1, h2⟩ := Res.run
    (x := printV clashEnv clashCache 5 1 (.obj [([120], .int 1), ([121], .int 2)]) (Writer.new WOpts.default))
    (fun w => w.err == none && w.out == [123, 34, 120, 34, 58, 50, 44, 34, 120, 34, 58, 50, 125]) (by decide +kernel)
  simp at h2
  exact ⟨w, h1, h2.1, h2.2⟩

example : ¬ clash.keys.Nodup ∧ clashEnv.Has 1 clash .object :=
  ⟨by decide, rfl, .object rfl (by intro t h; cases h)⟩

/-! ### C52 -/

/-- one field, with an alias and nothing else -/
def aliased : TyD := { fields := [⟨[120], 0, some (.mkAlias [97])⟩] }
def aliasedEnv (junk : Bool) : Env :=
  { types := [tInt, aliased], fmtG := fun _ => [48], stod := fun _ => .ok 0, junk := fun _ _ => junk }

/-- the printers made for it -/
def aliasedCache (junk : Bool) : WCache :=
  [(1, { kind := .object, sortedKeys := [[97]], keys := [([97], [120])], fields := [([120], 0)],
         skipEmpty := if junk then [[97]] else [] }), (0, { kind := .int })]

/-- The text printed depends on what an uninitialised `bool` happens to hold: a field with an alias and the
value zero is printed, `{"a":0}`, or left out, `{}`, although nobody asked for empty values to be skipped. -/
theorem C52_output_depends_on_junk :
    (∃ w, (print (aliasedEnv false) 5 [] 1 (.obj [([120], .int 0)]) (Writer.new WOpts.default)).1 = .ok w ∧ w.err = none ∧
      w.out = [123, 34, 97, 34, 58, 48, 125]) ∧
    (∃ w, (print (aliasedEnv true) 5 [] 1 (.obj [([120], .int 0)]) (Writer.new WOpts.default)).1 = .ok w ∧ w.err = none ∧
      w.out = [123, 125]) := by
  have hg : ∀ b, getPrinter (aliasedEnv b) 5 1 [] = (.ok (), aliasedCache b) := by
    intro b
    cases b <;> simp [getPrinter, initFieldsW, aliasedEnv, aliased, tInt, TyD.printerKind, TyD.customPrinter, Assoc.get, Assoc.set, Assoc.erase, Assoc.emplace, aliasedCache,
      FieldD.alias?, Traits.mkAlias, Traits.new, Env.skipEmpty, CBool.read, sortKeys, insertKey, bytesLt]
  unfold print
  rw [hg, hg]
  constructor
  · obtain ⟨w, h1, h2⟩ := Res.run
      (x := printV (aliasedEnv false) (aliasedCache false) 5 1 (.obj [([120], .int 0)]) (Writer.new WOpts.default))
      (fun w => w.err == none && w.out == [123, 34, 97, 34, 58, 48, 125]) (by decide +kernel)
    simp at h2
    exact ⟨w, h1, h2.1, h2.2⟩
  · obtain ⟨w, h1, h2⟩ := Res.run
      (x := printV (aliasedEnv true) (aliasedCache true) 5 1 (.obj [([120], .int 0)]) (Writer.new WOpts.default))
      (fun w => w.err == none && w.out == [123, 125]) (by decide +kernel)
    simp at h2
    exact ⟨w, h1, h2.1, h2.2⟩

end Ex

/-! ### C54 -/

/-- In compact mode a field that is not skipped is left out exactly if its value is empty. -/
theorem C54_omits_exactly_empty (env : Env) (hn : env.Named) (hsh : env.Shaped) (cw : WCache) (hw : Printers env cw) (wo : WOpts)
    (hc : wo.compact = true) (ty : TyId) (d : TyD) (hd : env.Has ty d .object) (hk : d.keys.Nodup) (fs : List (Bytes × JV))
    (hF : Numbers env (.obj fs)) (n : Nat) (w : Writer)
    (h : (print env n cw ty (.obj fs) (Writer.new wo)).1 = .ok w) (he : w.err = none) :
    ∃ ms, Gram (Stands wo) (.obj ms) w.out ∧ ∀ f ∈ d.fields, ∀ a, f.key = some a →
      (a ∉ ms.map (·.1) ↔ ∃ v, Assoc.get fs f.name = some v ∧ Empty env f.type v) := by
  obtain ⟨x, h1, h2, h5⟩ := C46_grammar env hn hsh cw hw wo ty _ hF n w h he
  obtain ⟨l, ms, rfl, h3, h4⟩ := doc_obj_inv hd h1
  refine ⟨ms, h2, ?_⟩
  intro f hf a ha
  have hl := (listing_mem h3 hk a f).mpr ⟨hf, ha⟩
  have hnd : (l.map (·.1)).Nodup := h3.1.nodup_iff.mpr hk
  clear h5 h1 h2 h3 h he hF
  constructor
  · intro hne
    induction l generalizing ms with
    | nil => cases hl
    | cons p l ih =>
      simp only [List.map_cons, List.nodup_cons] at hnd
      cases h4 with
      | shown _ _ _ b g v x _ ms' g1 g2 g3 g4 =>
        rcases List.mem_cons.mp hl with e | hl
        · cases e; simp at hne
        · exact ih ms' g4 hl hnd.2 (fun hm => hne (by simp [hm]))
      | omitted _ _ _ b g v _ _ g1 g2 g3 g4 =>
        rcases List.mem_cons.mp hl with e | hl
        · cases e; exact ⟨v, g1, g3⟩
        · exact ih ms g4 hl hnd.2 hne
  · rintro ⟨v, h1, h2⟩ hm
    obtain ⟨⟨b, x⟩, hm', rfl⟩ := List.mem_map.mp hm
    obtain ⟨g, v', k1, k2, k3, k4⟩ := (docFields_mem h4 b x).mp hm'
    have : g = f := by
      have key : ∀ {l : List (Bytes × FieldD)}, (l.map (·.1)).Nodup → (b, f) ∈ l → (b, g) ∈ l → g = f := by
        intro l hnd h1 h2
        induction l with
        | nil => cases h1
        | cons p l ih =>
          simp only [List.map_cons, List.nodup_cons] at hnd
          rcases List.mem_cons.mp h1 with e1 | m1
          · rcases List.mem_cons.mp h2 with e2 | m2
            · rw [← e1] at e2; injection e2 with _ e2
            · subst e1; exact absurd (List.mem_map.mpr ⟨(b, g), m2, rfl⟩) hnd.1
          · rcases List.mem_cons.mp h2 with e2 | m2
            · subst e2; exact absurd (List.mem_map.mpr ⟨(b, f), m1, rfl⟩) hnd.1
            · exact ih hnd.2 m1 m2
      exact key hnd hl k1
    subst this
    rw [h1] at k2
    injection k2 with k2
    subst k2
    exact k3 ⟨Or.inl hc, h2⟩

/-- Reading compact text back into an object whose left out members are equal already restores the value. -/
theorem C54_round_trip (env : Env) (hn : env.Named) (hsh : env.Shaped) (T : TyId → Prop) (hT : env.Closed T)
    (hv : ∀ ty d, T ty → ¬ env.Has ty d .void) (cw : WCache) (hw : Printers env cw) (cr : PCache) (hr : Parsers env cr)
    (wo : WOpts) (_hc : wo.compact = true) (ro : ROpts) (ty : TyId) (ht : T ty) (u v : JV)
    (hb : Back env (Survives wo ro) true ty u v) (hd : wo.pretty = true → v.depth ≤ 1024) :
    ValueBack env cw cr wo ro ty v u v :=
  C45_round_trip env hn hsh T hT hv cw hw cr hr wo ro ty ht u v (by rw [_hc]; exact hb) hd

/-- An object all of whose members are empty is printed as `{}`; reading it back leaves the object read into
as it was, even if what was left out is different there. -/
theorem C54_all_empty (env : Env) (hn : env.Named) (hsh : env.Shaped) (T : TyId → Prop) (hT : env.Closed T)
    (hv : ∀ ty d, T ty → ¬ env.Has ty d .void) (cw : WCache) (hw : Printers env cw) (cr : PCache) (hr : Parsers env cr)
    (wo : WOpts) (hc : wo.compact = true) (ro : ROpts) (ty : TyId) (ht : T ty) (d : TyD) (hd : env.Has ty d .object)
    (us vs : List (Bytes × JV)) (he : ∀ f ∈ d.fields, ∀ a, f.key = some a → ∃ v, Assoc.get vs f.name = some v ∧ Empty env f.type v)
    (hp : wo.pretty = true → JV.depthM vs < 1024) :
    ValueBack env cw cr wo ro ty (.obj vs) (.obj us) (.obj us) := by
  obtain ⟨l, hl, hl'⟩ := listing_of d
  clear hl'
  have h0 : DocFields env wo.compact ty d vs l [] := by
    have hm : ∀ p ∈ l, p.2 ∈ d.fields ∧ p.2.key = some p.1 := by
      intro p hp
      obtain ⟨l1, l2, e, h1, _⟩ := hl.2.2 p hp
      exact ⟨by rw [e]; simp, h1⟩
    clear hl
    induction l with
    | nil => exact .nil ty d vs
    | cons p l ih =>
      obtain ⟨h1, h2⟩ := hm p (by simp)
      obtain ⟨v, h3, h4⟩ := he p.2 h1 p.1 h2
      exact .omitted ty d vs p.1 p.2 v l [] h3 (Or.inl hc) h4 (ih (fun q hq => hm q (by simp [hq])))
  exact trip hn hsh hT hv hw hr ht (.obj ty d vs l [] hd hl h0) (.obj ty d [] us us hd (.nil d us)) (by simp [JTree.strs, JTree.strsM])
    (by intro h; have := hp h; rw [JV.depth]; omega)

namespace Ex

/-- an object with a pointer to a string and a `double` -/
def sparse : TyD := { fields := [⟨[112], 1, none⟩, ⟨[120], 2, none⟩] }
def sparseEnv : Env :=
  { types := [tStr, { pointee := some 0 }, { isFloat := true }, sparse], fmtG := fun _ => [48], stod := fun _ => .ok 0 }

/-- A pointer to an empty string comes back as null, and minus zero as zero. -/
theorem C54_empty_is_not_default (wo : WOpts) (hc : wo.compact = true) (ro : ROpts) :
    ValueBack sparseEnv [] [] wo ro 3 (.obj [([112], .ptr (.str [])), ([120], .flt 0x8000000000000000)])
      (.obj [([112], .null), ([120], .flt 0)]) (.obj [([112], .null), ([120], .flt 0)]) := by
  have hcl : sparseEnv.closedB = true := by decide
  refine C54_all_empty sparseEnv (namedB_spec (by decide)) (closedB_shaped hcl) (· < 4) (closedB_spec hcl)
    (solidB_spec hcl (by decide) _) [] .fresh [] .fresh wo hc ro 3 (by decide) sparse
    ⟨rfl, .object rfl (by intro t h; cases h)⟩ _ _ ?_ (by intro _; decide)
  intro f hf a ha
  simp only [sparse, List.mem_cons, List.not_mem_nil, or_false] at hf
  rcases hf with rfl | rfl
  · exact ⟨.ptr (.str []), by decide, .ptr 1 _ 0 _ ⟨rfl, .ptr 0 rfl rfl⟩ (.str 0 _ ⟨rfl, .string rfl⟩)⟩
  · exact ⟨.flt 0x8000000000000000, by decide, .flt 2 _ _ ⟨rfl, .float rfl⟩ rfl (Or.inr rfl)⟩

end Ex

/-! ### C55 -/

/-- A line break reads outside of the string of blanks exactly if the indentation is above 1024. -/
theorem C55_newline (w : Writer) (hp : w.opts.pretty = true) :
    (w.indent ≤ 1024 → w.newline = .ok (w.push (10 :: List.replicate (w.indent * 4) 32))) ∧
      (1024 < w.indent → w.newline = .error .ub) := by
  unfold Writer.newline
  rw [if_pos hp]
  constructor
  · intro h
    rw [if_pos (by unfold blanks; omega), Writer.push_push]
    rfl
  · intro h
    rw [if_neg (by unfold blanks; omega)]

/-- Printing any value of depth at most 1024 that has a document stays inside. -/
theorem C55_safe (env : Env) (hn : env.Named) (hsh : env.Shaped) (T : TyId → Prop) (hT : env.Closed T)
    (hv : ∀ ty d, T ty → ¬ env.Has ty d .void) (cw : WCache) (hw : Printers env cw) (wo : WOpts) (ty : TyId) (ht : T ty)
    (v : JV) (x : JTree) (hd : Doc env wo.compact ty v x) (hs : ∀ s ∈ x.strs, Text 0x10000 s) (hdep : v.depth ≤ 1024) :
    ∃ n0, ∀ n, n0 ≤ n → ∃ w, (print env n cw ty v (Writer.new wo)).1 = .ok w ∧ w.err = none ∧ Gram (Stands wo) x w.out := by
  have hs' : ∀ s ∈ x.strs, Survives wo ROpts.default s := by
    intro s h
    refine ⟨fun _ => ⟨rfl, hs s h⟩, fun _ _ => ?_⟩
    obtain ⟨ns, h1, h2⟩ := hs s h
    exact ⟨ns, fun n hn => Nat.lt_trans (h1 n hn) (by decide), h2⟩
  obtain ⟨n0, h0⟩ := doc_text hn hsh hT hv ht (printers_good hn hw) hd (fun s h => by
    obtain ⟨t, h, _⟩ := survives_text (hs' s h)
    exact ⟨t, h⟩)
  refine ⟨n0, fun n hn' => ?_⟩
  obtain ⟨body, e1, e2⟩ := h0 n hn' (Writer.new wo) rfl rfl (by
    intro _
    have := doc_depth hd
    simp only
    omega)
  refine ⟨_, e1, rfl, ?_⟩
  have : ((Writer.new wo).push body).out = body := by simp [Writer.push]
  rw [this]
  exact Gram.mono e2 (fun m _ t ht => ftext_stands ht)

/-- Printing a container with two or more items at a deeper level reads outside, whatever the items. -/
theorem C55_container_undefined (w : Writer) (hp : w.opts.pretty = true) (hi : 1024 ≤ w.indent) :
    (∀ (α : Type) (fn : α → Writer → Res Writer) (xs : List α), 2 ≤ xs.length → printArray fn xs w = .error .ub) ∧
    (∀ (fn : Bytes → Writer → Res Writer) (skip : Bytes → Res Bool) (ks : List Bytes), 2 ≤ ks.length →
      printObject fn skip ks w = .error .ub) := by
  have key : ∀ w' : Writer, w'.opts.pretty = true → 1024 ≤ w'.indent → openLayout true w' = .error .ub := by
    intro w' h1 h2
    exact (C55_newline w'.indented h1).2 (by unfold Writer.indented; simp only; omega)
  constructor
  · intro α fn xs hx
    unfold printArray
    simp only [show decide (xs.length > 1) = true by simp; omega]
    rw [key (w.push [91]) hp hi]
    rfl
  · intro fn skip ks hx
    unfold printObject
    simp only [show decide (ks.length > 1) = true by simp; omega]
    rw [key (w.push [123]) hp hi]
    rfl

end Reflect.Json
