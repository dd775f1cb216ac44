import Verif.Lemmas.Registry
/-
  What a type holds in any history, failed loads included: the members defined by an initial part of
  its loader's script.
-/
namespace Reflect.Registry
variable (prog : LoaderId → List Act)

/-- a script that stops early has defined the members of an initial part of itself -/
theorem runActs_defs_prefix {g : St → Name → St × Res TypeId} (hg : Keeps g)
    (he : ∀ s id, Ext s (g s id).1) (t : TypeId) (as : List Act) (s : St) (ht : t < s.next) :
    ∃ pre post, as = pre ++ post ∧ defsOf (runActs g (some t) as s).1 t = defsOf s t ++ membersOf pre := by
  induction as generalizing s with
  | nil => exact ⟨[], [], rfl, by simp [runActs, membersOf]⟩
  | cons a as ih =>
    have e1 : Ext s (runAct g (some t) s a).1 :=
      runAct_presOn (ext_stable s) (fun s' id h => h.trans (he s' id)) (some t) a (allowed_true _) s
        (Ext.refl s)
    have h1 := (runAct_defs hg (some t) a s t ht).2 rfl
    rw [runActs]
    cases h : (runAct g (some t) s a).2 with
    | error e => rw [andThen_err h]; exact ⟨[a], as, rfl, h1⟩
    | ok u =>
      rw [andThen_ok h]
      obtain ⟨pre, post, rfl, h2⟩ := ih (runAct g (some t) s a).1 (Nat.lt_of_lt_of_le ht e1.next)
      refine ⟨a :: pre, post, rfl, ?_⟩
      rw [h2, h1, membersOf_cons a pre, List.append_assoc]

/-- types whose loader ran to its end or failed hold the members of an initial part of its script;
    `stack` holds those still loading -/
structure Begun (stack : List TypeId) (s : St) : Prop where
  inv : Inv s
  part : ∀ n l t, (n, l, t) ∈ s.runs → t ∉ stack →
    ∃ pre post, prog l = pre ++ post ∧ defsOf s t = membersOf pre
  clean : Clean s

theorem begun_of_same {stack : List TypeId} {s s' : St} (h : Begun prog stack s)
    (hi : Inv s') (hr : s'.runs = s.runs) (hc : Clean s')
    (hd : ∀ t, t < s.next → t ∉ stack → defsOf s' t = defsOf s t) : Begun prog stack s' := by
  refine ⟨hi, ?_, hc⟩
  intro n l t ht hn
  rw [hr] at ht
  rw [hd t (h.inv.fresh _ _ _ ht) hn]
  exact h.part n l t ht hn

theorem runAct_begun {g : St → Name → St × Res TypeId}
    (hg : ∀ stack s id, Begun prog stack s → Begun prog stack (g s id).1)
    (stack : List TypeId) (cur : Option TypeId) (a : Act) (s : St) (h : Begun prog stack s)
    (hc : ∀ c, cur = some c → c ∈ stack ∧ c < s.next) :
    Begun prog stack (runAct g cur s a).1 := by
  cases a with
  | get id => exact hg stack s id h
  | add id l =>
    obtain ⟨_, _, _, h4, h5, _, _⟩ := addLoader_fields s id l
    exact begun_of_same prog h (inv_stable.add s id l trivial h.inv) h4
      (clean_of h.clean h5 (addLoader_ext s id l).next) (fun t _ _ => defsOf_congr h5 t)
  | alias id al =>
    obtain ⟨_, _, h3, h4, _, _⟩ := addAlias_fields s id al
    exact begun_of_same prog h (inv_stable.alias s id al h.inv) h3
      (clean_of h.clean h4 (addAlias_ext s id al).next) (fun t _ _ => defsOf_congr h4 t)
  | require id l =>
    show Begun prog stack (andThen (templateLoader id l s) (lookup g id)).1
    have hB : Begun prog stack (templateLoader id l s).1 := by
      have hd := templateLoader_defs s id l
      refine begun_of_same prog h
        (templateLoader_presOn inv_stable s id l trivial h.inv) ?_
        (clean_of h.clean hd
          (templateLoader_presOn (ext_stable s) s id l trivial (Ext.refl s)).next)
        (fun t _ _ => defsOf_congr hd t)
      unfold templateLoader
      split
      · rfl
      · exact (addLoader_fields { s with flags := l :: s.flags } id l).2.2.2.1
    cases ht : (templateLoader id l s).2 with
    | error e => rw [andThen_err ht]; exact hB
    | ok u => rw [andThen_ok ht]; exact hg stack _ id hB
  | member m =>
    cases cur with
    | none => exact h
    | some c =>
      have hcl : Clean (runAct g (some c) s (.member m)).1 := by
        refine runAct_clean (g := fun s _ => (s, .error .err)) (fun s id hs => hs) (some c)
          (.member m) s h.clean ?_
        intro c' hc'; simp at hc'; subst hc'; exact (hc c rfl).2
      refine begun_of_same prog h (inv_stable.defs s c m h.inv) rfl hcl ?_
      intro t _ hn
      have := defsOf_append s c t m
      rw [if_neg (by rintro rfl; exact hn (hc c rfl).1), List.append_nil] at this
      exact this
  | fail => exact h

theorem runActs_begun {g : St → Name → St × Res TypeId}
    (hg : ∀ stack s id, Begun prog stack s → Begun prog stack (g s id).1)
    (he : ∀ s id, Ext s (g s id).1)
    (stack : List TypeId) (cur : Option TypeId) (as : List Act) (s : St) (h : Begun prog stack s)
    (hc : ∀ c, cur = some c → c ∈ stack ∧ c < s.next) :
    Begun prog stack (runActs g cur as s).1 := by
  induction as generalizing s with
  | nil => exact h
  | cons a as ih =>
    have e1 : Ext s (runAct g cur s a).1 :=
      runAct_presOn (ext_stable s) (fun s' id h => h.trans (he s' id)) cur a (allowed_true _) s
        (Ext.refl s)
    have h1 := runAct_begun prog hg stack cur a s h hc
    rw [runActs]
    cases hr : (runAct g cur s a).2 with
    | error e => rw [andThen_err hr]; exact h1
    | ok u =>
      rw [andThen_ok hr]
      exact ih _ h1 (fun c hcc => ⟨(hc c hcc).1, Nat.lt_of_lt_of_le (hc c hcc).2 e1.next⟩)

theorem begun_get (fuel : Nat) : ∀ stack s id, Begun prog stack s →
    Begun prog stack (get prog fuel s id).1 := by
  induction fuel with
  | zero => intro stack s id h; exact h
  | succ fuel ih =>
    intro stack s id h
    rw [get]
    simp only
    split
    · exact h
    · rename_i hn
      split
      · exact h
      · rename_i hne
        split
        · exact h
        · rename_i l hl
          have hI := inv_begin s (resolve s id) l h.inv hn hl
          have hB : Begun prog (s.next :: stack) (beginLoad s (resolve s id) l) := by
            refine ⟨hI, ?_, clean_of h.clean rfl (Nat.le_succ _)⟩
            intro n l' t ht hnot
            have ht : (n, l', t) ∈ s.runs ++ [(resolve s id, l, s.next)] := ht
            rw [List.mem_append] at ht
            rcases ht with ht | ht
            · exact h.part n l' t ht (fun hm => hnot (List.mem_cons_of_mem _ hm))
            · simp only [List.mem_singleton, Prod.mk.injEq] at ht
              exact absurd (by rw [ht.2.2]; simp) hnot
          have hC := runActs_begun prog ih (fun s id => ext_get prog fuel s id)
            (s.next :: stack) (some s.next) (prog l) _ hB
            (by intro c hc; simp at hc; subst hc; exact ⟨by simp, Nat.lt_succ_self _⟩)
          refine ⟨hC.inv, ?_, hC.clean⟩
          intro n l' t ht hnot
          by_cases htn : t = s.next
          · subst htn
            have hE := ext_runActs prog fuel (some s.next) (prog l) (beginLoad s (resolve s id) l)
            have hmem : (resolve s id, l, s.next) ∈ (runActs (get prog fuel) (some s.next) (prog l)
                (beginLoad s (resolve s id) l)).1.runs :=
              hE.runs.subset (by simp [beginLoad])
            have hn' := hC.inv.inj _ _ _ _ _ ht hmem
            subst hn'
            have hl' : l' = l := by
              have a := hC.inv.first _ _ _ ht
              rw [hC.inv.first _ _ _ hmem] at a
              exact (Option.some.inj a).symm
            subst hl'
            obtain ⟨pre, post, hp, hd⟩ := runActs_defs_prefix (keeps_get prog fuel)
              (fun s id => ext_get prog fuel s id) s.next (prog l')
              (beginLoad s (resolve s id) l') (Nat.lt_succ_self _)
            refine ⟨pre, post, hp, ?_⟩
            rw [hd]
            have : defsOf (beginLoad s (resolve s id) l') s.next = [] := by
              unfold defsOf
              rw [List.map_eq_nil_iff, List.filter_eq_nil_iff]
              intro p hp
              have := h.clean p hp
              simp; omega
            rw [this, List.nil_append]
          · exact hC.part n l' t ht (by simp [htn, hnot])

theorem begun_run (fuel : Nat) (ops : List Act) : Begun prog [] (run prog fuel St.init ops) := by
  suffices H : ∀ s, Begun prog [] s → Begun prog [] (run prog fuel s ops) from
    H St.init ⟨inv_init, by simp [St.init], by intro p hp; simp [St.init] at hp⟩
  induction ops with
  | nil => intro s h; exact h
  | cons a as ih =>
    intro s h
    exact ih _ (runActs_begun prog (begun_get prog fuel) (fun s id => ext_get prog fuel s id) [] none
      [a] s h (by simp))

end Reflect.Registry
