f='/verif/lean/Verif/Props/JsonPlacePrint.lean'
s=open(f).read()
i=s.rindex("end\n\nend Reflect.Json")
s=s[:i]+'''/-! ### The claims -/

/-- C89. `json::print(writer, value)` of an object in memory that has the value `v` - through an lvalue, const or not - has
the outcome of `print` of the tree `v` (Model/Json/Typed.lean, C40-C65): the same error, or the same text in the same writer; the
cache of printers is the same afterwards; and of the memory nothing that existed has changed. -/
theorem C89_print (hB : BackedW p N L env T) (hcl : env.Closed T) (hn : env.Named) {c : WCache} (hc : Printers env c) (other : OtherW) (F E n : Nat)
    (ty : Ty) (hT : T ty) (o : Handle) (ho : o.arg.type = ty) (hol : o.arg.ref = .lvalue) (hp : Heap) (v : JV)
    (hv : Shows p N.toNative L env.orderOf hp ty o.addr v) (hE : sizeOf v < E) (w : Writer) :
    (printMem p N other env (F + 2) E n c ty o hp w).2 = (print env n c ty v w).2 ∧
    match (print env n c ty v w).1 with
    | .error e => (printMem p N other env (F + 2) E n c ty o hp w).1 = .error e
    | .ok w' => ∃ hp', (printMem p N other env (F + 2) E n c ty o hp w).1 = .ok (hp', w') ∧ Ext hp hp' := by
  unfold printMem print
  simp only
  cases hg : (getPrinter env n ty c).1 with
  | error e => exact ⟨rfl, rfl⟩
  | ok u =>
    refine ⟨rfl, ?_⟩
    obtain ⟨g1, g2⟩ := getPrinter_Good hn (c' := (getPrinter env n ty c).2) (n := n) (ty := ty) (c := c) (by rw [← hg]) (printers_good hn hc)
    have := printP_spec hB hcl g1 other F E n ty hT g2 o hp w v ho hol hv hE
    simp only
    cases hq : printV env (getPrinter env n ty c).2 n ty v w with
    | error e => rw [hq] at this; exact this
    | ok q => rw [hq] at this; exact this

/-- C89. Every object that can be parsed into - and so every one that was parsed into (C88) - can be printed: what is printed is its value, the
entries of maps in the order in which the maps go through them. -/
theorem C89_whole (hB : BackedW p N L env T) (hcl : env.Closed T) (hn : env.Named) (hid : ∀ ty ks, env.orderOf ty ks = ks) {c : WCache}
    (hc : Printers env c) (other : OtherW) (F n : Nat) (ty : Ty) (hT : T ty) (o : Handle) (ho : o.arg.type = ty) (hol : o.arg.ref = .lvalue) (hp : Heap)
    (v : JV) (O : Nat → Prop) (hr : Rep p N.toNative L hp ty o.addr v O) (w : Writer) :
    ∃ v', Shuffled v v' ∧ ∃ E0, ∀ E, E0 ≤ E →
    match (print env n c ty v' w).1 with
    | .error e => (printMem p N other env (F + 2) E n c ty o hp w).1 = .error e
    | .ok w' => ∃ hp', (printMem p N other env (F + 2) E n c ty o hp w).1 = .ok (hp', w') ∧ Rep p N.toNative L hp' ty o.addr v O := by
  obtain ⟨v', h1, h2⟩ := hr.shows hB.sound
  rw [show (fun (_ : Ty) (ks : List Bytes) => ks) = env.orderOf from funext fun ty => funext fun ks => (hid ty ks).symm] at h2
  refine ⟨v', h1, sizeOf v' + 1, fun E hE => ?_⟩
  have := (C89_print hB hcl hn hc other F E n ty hT o ho hol hp v' h2 (by omega) w).2
  cases hq : (print env n c ty v' w).1 with
  | error e => rw [hq] at this; exact this
  | ok w' =>
    rw [hq] at this
    obtain ⟨hp', e1, e2⟩ := this
    exact ⟨hp', e1, hr.kept hB.sound e2.grow fun y hy _ => e2.same y hy⟩

/-- C89. What is printed of one object in memory can be parsed into another, which then has the value that reading back the printed tree gives
(`ValueBack`, C40). The first one and all others stay as they were. -/
theorem C89_back (hB : BackedW p N L env T) {smart : Ty → Bool} (hP : Backed p N.toNative L env smart T) (hcl : env.Closed T) (hn : env.Named)
    {cw : WCache} (hw : Printers env cw) {c : PCache} (hc : Parsers env c) (otherW : OtherW) (other : Other) (F : Nat) (ty : Ty) (hT : T ty)
    (o : Handle) (ho : o.arg.type = ty) (hol : o.arg.ref = .lvalue) (b : Handle) (hb : b.arg = ty.lref) (hp : Heap) (v u v' : JV) (O : Nat → Prop)
    (hv : Shows p N.toNative L env.orderOf hp ty o.addr v) (hr : Rep p N.toNative L hp ty b.addr u O) (wo : WOpts) (ro : ROpts)
    (hvb : ValueBack env cw c wo ro ty v u v') :
    ∃ n0 E0 out, ∀ n, n0 ≤ n → ∀ E, E0 ≤ E → ∃ hp1 w, (printMem p N otherW env (F + 2) E n cw ty o hp (Writer.new wo)).1 = .ok (hp1, w) ∧
      w.err = none ∧ w.out = out ∧
      ∀ y, Stops y → ∃ hp2 O' r, (parseMem p N.toNative smart other env (F + 2) n c ty b hp1 (Reader.open ro (out ++ y))).1 = .ok (b, hp2, r) ∧
        r.err = none ∧ r.rest = y ∧ Become p N.toNative L hp hp2 ty b.addr O v' O' := by
  obtain ⟨n0, out, h1, h2⟩ := hvb
  refine ⟨n0, sizeOf v + 1, out, fun n hn0 E hE => ?_⟩
  obtain ⟨w, a1, a2, a3⟩ := h1 n hn0
  have := (C89_print hB hcl hn hw otherW F E n ty hT o ho hol hp v hv (by omega) (Writer.new wo)).2
  rw [a1] at this
  obtain ⟨hp1, b1, b2⟩ := this
  refine ⟨hp1, w, b1, a2, a3, fun y hy => ?_⟩
  obtain ⟨r, e1, e2, e3⟩ := h2 y hy n hn0
  have hr1 : Rep p N.toNative L hp1 ty b.addr u O := hr.kept hB.sound b2.grow fun y hy _ => b2.same y hy
  have := (C88_parse hP hcl hn hc other F n ty hT b hb hp1 u O hr1 (Reader.open ro (out ++ y))).2
  rw [e1] at this
  obtain ⟨hp2, O', q1, q2⟩ := this
  exact ⟨hp2, O', r, q1, e2, e3, q2.rep, fun y hy z1 z2 => by rw [q2.same y (Nat.lt_of_lt_of_le hy b2.grow) z1 z2, b2.same y hy],
    fun y hy z => q2.mine y (Nat.lt_of_lt_of_le hy b2.grow) z, Nat.le_trans b2.grow q2.grow⟩

'''+s[i:]
open(f,'w').write(s)
