import Verif.Lemmas.Json.Back
import Verif.Lemmas.Json.Fuel
import Verif.Spec.JsonUse
/- Printing and reading back: from lookup to lookup. -/
namespace Reflect.Json

variable {env : Env} {T : TyId → Prop}

theorem parsers_good (hn : env.Named) {c : PCache} (h : Parsers env c) : Good env c := by
  induction h with
  | fresh => exact good_nil
  | used c n ty v r _ h ih =>
    have : (parse env n c ty v r).2 = (getParser env n ty c).2 := by
      unfold parse; simp only [h]
    rw [this]
    exact (getParser_Good hn (c' := (getParser env n ty c).2) (by rw [← h]) ih).1

theorem printers_good (hn : env.Named) {c : WCache} (h : Printers env c) : GoodW env c := by
  induction h with
  | fresh => exact goodW_nil
  | used c n ty v w _ h ih =>
    have : (print env n c ty v w).2 = (getPrinter env n ty c).2 := by
      unfold print; simp only [h]
    rw [this]
    exact (getPrinter_Good hn (c' := (getPrinter env n ty c).2) (by rw [← h]) ih).1

mutual
theorem Gram.mono {S S' : Bytes → Bytes → Prop} : ∀ {x : JTree} {s : Bytes}, Gram S x s →
    (∀ m ∈ x.strs, ∀ t, S m t → S' m t) → Gram S' x s
  | _, _, .null, _ => .null
  | _, _, .true, _ => .true
  | _, _, .false, _ => .false
  | _, _, .int s h, _ => .int s h
  | _, _, .float s h, _ => .float s h
  | _, _, .str m t h, hS => .str m t (hS m (by simp [JTree.strs]) t h)
  | _, _, .arrNil w h, _ => .arrNil w h
  | _, _, .arr xs s h, hS => .arr xs s (Elems.mono h (by simpa [JTree.strs] using hS))
  | _, _, .objNil w h, _ => .objNil w h
  | _, _, .obj xs s h, hS => .obj xs s (Members.mono h (by simpa [JTree.strs] using hS))
theorem Elems.mono {S S' : Bytes → Bytes → Prop} : ∀ {xs : List JTree} {s : Bytes}, Elems S xs s →
    (∀ m ∈ JTree.strsL xs, ∀ t, S m t → S' m t) → Elems S' xs s
  | _, _, .one x w s w' h1 h2 h3, hS => .one x w s w' h1 (Gram.mono h2 (fun m hm => hS m (by simp [JTree.strsL, hm]))) h3
  | _, _, .cons x xs w s w' s' h1 h2 h3 h4, hS =>
    .cons x xs w s w' s' h1 (Gram.mono h2 (fun m hm => hS m (by simp [JTree.strsL, hm]))) h3
      (Elems.mono h4 (fun m hm => hS m (by simp [JTree.strsL, hm])))
theorem Members.mono {S S' : Bytes → Bytes → Prop} : ∀ {ms : List (Bytes × JTree)} {s : Bytes}, Members S ms s →
    (∀ m ∈ JTree.strsM ms, ∀ t, S m t → S' m t) → Members S' ms s
  | _, _, .one m x w t w1 w2 s w' h1 h2 h3 h4 h5 h6, hS =>
    .one m x w t w1 w2 s w' h1 (hS m (by simp [JTree.strsM]) t h2) h3 h4
      (Gram.mono h5 (fun m hm => hS m (by simp [JTree.strsM, hm]))) h6
  | _, _, .cons m x ms w t w1 w2 s w' s' h1 h2 h3 h4 h5 h6 h7, hS =>
    .cons m x ms w t w1 w2 s w' s' h1 (hS m (by simp [JTree.strsM]) t h2) h3 h4
      (Gram.mono h5 (fun m hm => hS m (by simp [JTree.strsM, hm]))) h6
      (Members.mono h7 (fun m hm => hS m (by simp [JTree.strsM, hm])))
end

theorem survives_text {wo : WOpts} {ro : ROpts} {s : Bytes} (h : Survives wo ro s) :
    ∃ t, FText wo s t ∧ StrBody ro t s := by
  cases he : wo.escapeUnicode with
  | true =>
    obtain ⟨hr, ns, h1, rfl⟩ := h.1 he
    exact FText.body_esc he hr ns h1
  | false =>
    cases hv : wo.validateUnicode with
    | true =>
      obtain ⟨ns, h1, rfl⟩ := h.2 he (Or.inl hv)
      exact FText.body_copy he hv ns h1
    | false =>
      obtain ⟨t, h1, h2⟩ := FText.body_raw (ro := ro) he hv s
      refine ⟨t, h1, h2 ?_⟩
      cases hr : ro.validateUnicode with
      | true => exact Or.inr (h.2 he (Or.inr hr))
      | false => exact Or.inl rfl

theorem survives_body {wo : WOpts} {ro : ROpts} {s t : Bytes} (h : Survives wo ro s) (ht : FText wo s t) : StrBody ro t s := by
  obtain ⟨t', h1, h2⟩ := survives_text h
  rw [ht.unique h1]; exact h2

/-- after the lookup -/
theorem parse_ready (hn : env.Named) (hT : env.Closed T) {ty : TyId} (ht : T ty) {c : PCache} (hc : Good env c) :
    ∃ n0 c', Good env c' ∧ (Assoc.get c' ty).isSome ∧ ∀ n, n0 ≤ n → ∀ v r, parse env n c ty v r = (parseV env c' n ty v r, c') := by
  have hok := getParser_ok hn hT (missing env c + 1) ty c ht (by omega)
  obtain ⟨g1, g2⟩ := getParser_Good hn (c' := (getParser env (missing env c + 1) ty c).2) (by rw [← hok]) hc
  refine ⟨missing env c + 1, _, g1, g2, fun n hn' v r => ?_⟩
  unfold parse
  rw [getParser_enough (n := n) (by omega)]
  simp only [hok]

theorem print_ready (hn : env.Named) (hT : env.Closed T) (hv : ∀ ty d, T ty → ¬ env.Has ty d .void)
    {ty : TyId} (ht : T ty) {c : WCache} (hc : GoodW env c) :
    ∃ n0 c', GoodW env c' ∧ (Assoc.get c' ty).isSome ∧ ∀ n, n0 ≤ n → ∀ v w, print env n c ty v w = (printV env c' n ty v w, c') := by
  have hok := getPrinter_ok hn hT hv (missingW env c + 1) ty c ht (by omega)
  obtain ⟨g1, g2⟩ := getPrinter_Good hn (c' := (getPrinter env (missingW env c + 1) ty c).2) (by rw [← hok]) hc
  refine ⟨missingW env c + 1, _, g1, g2, fun n hn' v w => ?_⟩
  unfold print
  rw [getPrinter_enough (n := n) (by omega)]
  simp only [hok]

/-- the text of a document is read as the document loads -/
theorem load_text (hn : env.Named) (hT : env.Closed T) {ty : TyId} (ht : T ty) {c : PCache} (hc : Good env c) {ro : ROpts}
    {u v : JV} {x : JTree} (hl : Load env ty u x v) : ∃ n0, ∀ n, n0 ≤ n → ∀ s y, Reads ro s x.toks y →
      ∃ r, (parse env n c ty u (Reader.open ro s)).1 = .ok (v, r) ∧ r.err = none ∧ r.rest = y := by
  have hok := getParser_ok hn hT (missing env c + 1) ty c ht (by omega)
  obtain ⟨g1, g2⟩ := getParser_Good hn (c' := (getParser env (missing env c + 1) ty c).2) (by rw [← hok]) hc
  obtain ⟨n0, h0⟩ := load_parse g1 ro hl g2
  refine ⟨missing env c + 1 + n0, fun n hn' s y hr => ?_⟩
  obtain ⟨r, e1, e2⟩ := h0 n (by omega) (Reader.open ro s) [] y (by simpa using (FedR.open hr).fed)
  refine ⟨r, ?_, e2.err, e2.rest⟩
  unfold parse
  rw [getParser_enough (n := n) (by omega)]
  simp only [hok]
  exact e1

/-- a value that stands for a document is printed as its text -/
theorem doc_text (hn : env.Named) (hsh : env.Shaped) (hT : env.Closed T) (hv : ∀ ty d, T ty → ¬ env.Has ty d .void)
    {ty : TyId} (ht : T ty) {c : WCache} (hc : GoodW env c) {wo : WOpts} {v : JV} {x : JTree}
    (hd : Doc env wo.compact ty v x) (hs : Texts wo x.strs) : ∃ n0, ∀ n, n0 ≤ n → ∀ w : Writer, w.opts = wo → w.err = none →
      (wo.pretty = true → w.indent + x.depth ≤ 1024) →
      ∃ body, (print env n c ty v w).1 = .ok (w.push body) ∧ Gram (FText wo) x body := by
  have hok := getPrinter_ok hn hT hv (missingW env c + 1) ty c ht (by omega)
  obtain ⟨g1, g2⟩ := getPrinter_Good hn (c' := (getPrinter env (missingW env c + 1) ty c).2) (by rw [← hok]) hc
  obtain ⟨n0, h0⟩ := doc_prints g1 hsh hd g2 hs
  refine ⟨missingW env c + 1 + n0, fun n hn' w ho he hp => ?_⟩
  obtain ⟨body, e1, e2⟩ := h0 n (by omega) w ⟨he, ho, hp⟩
  refine ⟨body, ?_, e2⟩
  unfold print
  rw [getPrinter_enough (n := n) (by omega)]
  simp only [hok]
  exact e1

/-- what is printed without an error is the text of the document -/
theorem print_text (hn : env.Named) (hsh : env.Shaped) {ty : TyId} {c : WCache} (hc : GoodW env c) {v : JV} {n : Nat}
    {w w' : Writer} (h : (print env n c ty v w).1 = .ok w') (he : w'.err = none)
    (hF : ∀ x ∈ v.floats, IntGram (env.fmtG x) ∨ FloatGram (env.fmtG x)) :
    ∃ x body, w' = w.push body ∧ Doc env w.opts.compact ty v x ∧ Gram (FText w.opts) x body := by
  unfold print at h
  cases hp : getPrinter env n ty c with
  | mk a c' =>
    rw [hp] at h
    cases a with
    | error e => cases h
    | ok _ =>
      obtain ⟨g1, g2⟩ := getPrinter_Good hn hp hc
      obtain ⟨_, x, body, e1, e2, e3⟩ := print_sound g1 hsh n ty v w w' h he hF
      exact ⟨x, body, e1, e2, e3⟩

end Reflect.Json
