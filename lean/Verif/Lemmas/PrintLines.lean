import Verif.Lemmas.Print
/-
  Printed text as lines, and reading lines back.
-/
namespace Reflect.Print
open Reflect.Spec

/-! ### lines -/

/-- an indentation and what follows it -/
abbrev Line := Nat × Name

def unl (ls : List Line) : Name := ls.flatMap fun l => (spaces l.1 ++ l.2) ++ ['\n']

/-- the content of a line: without line break, not beginning with a space -/
def Clean (l : Line) : Prop := '\n' ∉ l.2 ∧ l.2.head? ≠ some ' '

theorem unl_inj {a b : List Line} (ha : ∀ l ∈ a, Clean l) (hb : ∀ l ∈ b, Clean l) (h : unl a = unl b) : a = b := by
  have hm : ∀ (a : List Line), unl a = (a.map fun l => spaces l.1 ++ l.2).flatMap fun x => x ++ ['\n'] := by
    intro a; simp only [unl, List.flatMap_map]
  have hn : ∀ (a : List Line), (∀ l ∈ a, Clean l) → ∀ x ∈ a.map (fun l => spaces l.1 ++ l.2), '\n' ∉ x := by
    intro a ha x hx hm
    obtain ⟨l, hl, rfl⟩ := List.mem_map.1 hx
    rcases List.mem_append.1 hm with hm | hm
    · have := (List.mem_replicate.1 hm).2
      revert this; decide
    · exact (ha l hl).1 hm
  rw [hm, hm] at h
  replace h := ended_inj (hn a ha) (hn b hb) h
  clear hm hn
  induction a generalizing b with
  | nil => simpa using h
  | cons x xs ih =>
    cases b with
    | nil => simp at h
    | cons y ys =>
      simp only [List.map_cons, List.cons.injEq] at h
      have hx := ha x (by simp)
      have hy := hb y (by simp)
      obtain ⟨h1, h2⟩ := while_inj (q := fun c => c = ' ') (fun a ha => (List.mem_replicate.1 ha).2)
        (fun a ha => (List.mem_replicate.1 ha).2) (fun a ha e => hx.2 (e ▸ ha)) (fun a ha e => hy.2 (e ▸ ha)) h.1
      have h3 : x.1 = y.1 := by
        have := congrArg List.length h1
        simpa using this
      rw [ih (fun l hl => ha l (by simp [hl])) (fun l hl => hb l (by simp [hl])) h.2]
      rw [show x = y from Prod.ext h3 h2]

theorem unl_append (a b : List Line) : unl (a ++ b) = unl a ++ unl b := by simp [unl]

theorem unl_cons (l : Line) (b : List Line) : unl (l :: b) = spaces l.1 ++ l.2 ++ ['\n'] ++ unl b := by
  simp [unl]

theorem unl_nil : unl [] = [] := rfl

/-! ### traits, fields -/

def traitsT (ns : List Name) : Name := "[ ".toList ++ ns.flatMap (fun n => n ++ " ".toList) ++ "]".toList

theorem word_space {s : Name} (h : Word s) : ' ' ∉ s := fun hm => (h.2 _ hm).2.1 rfl

theorem traitsT_inj {a b : List Name} (ha : ∀ x ∈ a, Word x) (hb : ∀ x ∈ b, Word x) (h : traitsT a = traitsT b) :
    a = b := by
  unfold traitsT at h
  simp only [List.append_assoc] at h
  exact ended_inj (c := ' ') (fun x hx => word_space (ha x hx)) (fun x hx => word_space (hb x hx))
    (List.append_cancel_right (List.append_cancel_left h))

theorem traitsT_line {a : List Name} (ha : ∀ x ∈ a, Word x) : '\n' ∉ traitsT a := by
  intro hm
  simp only [traitsT, List.mem_append, List.mem_flatMap] at hm
  rcases hm with (hm | ⟨n, hn, hm | hm⟩) | hm
  · revert hm; decide
  · exact ((ha n hn).2 _ hm).1 rfl
  · revert hm; decide
  · revert hm; decide

theorem traitsT_prefix (a : List Name) : "[ ".toList <+: traitsT a := by
  unfold traitsT
  rw [List.append_assoc]
  exact List.prefix_append _ _

theorem hexChar_inj {m n : Nat} (hm : m < 16) (hn : n < 16) (h : hexChar m = hexChar n) : m = n := by
  have key : ∀ m : Fin 16, ∀ n : Fin 16, hexChar m.val = hexChar n.val → m = n := by decide
  exact congrArg Fin.val (key ⟨m, hm⟩ ⟨n, hn⟩ h)

theorem hexChar_ok {m : Nat} (hm : m < 16) : hexChar m ≠ ':' ∧ hexChar m ≠ '\n' ∧ hexChar m ≠ '[' := by
  have key : ∀ m : Fin 16, hexChar m.val ≠ ':' ∧ hexChar m.val ≠ '\n' ∧ hexChar m.val ≠ '[' := by decide
  exact key ⟨m, hm⟩

theorem hexText_ne (n : Nat) : hexText n ≠ [] := by
  rw [hexText.eq_def]
  split <;> simp

theorem hexText_ok : ∀ (n : Nat), ∀ c ∈ hexText n, c ≠ ':' ∧ c ≠ '\n' ∧ c ≠ '[' := by
  intro n
  induction n using Nat.strongRecOn with
  | ind n ih =>
    intro c hc
    rw [hexText.eq_def] at hc
    split at hc
    · rename_i h
      rw [List.mem_singleton] at hc
      rw [hc]; exact hexChar_ok h
    · rename_i h
      rcases List.mem_append.1 hc with hc | hc
      · exact ih (n / 16) (by omega) c hc
      · rw [List.mem_singleton] at hc
        rw [hc]; exact hexChar_ok (Nat.mod_lt _ (by omega))

theorem hexText_inj : ∀ {m n : Nat}, hexText m = hexText n → m = n := by
  intro m
  induction m using Nat.strongRecOn with
  | ind m ih =>
    intro n h
    have snoc : ∀ (a b : Name) (c d : Char), a ++ [c] = b ++ [d] → a = b ∧ c = d := by
      intro a b c d h
      exact ⟨(List.append_inj' h rfl).1, by simpa using (List.append_inj' h rfl).2⟩
    rw [hexText.eq_def] at h
    conv at h => rhs; rw [hexText.eq_def]
    split at h <;> split at h
    · rename_i h1 h2
      exact hexChar_inj h1 h2 (by simpa using h)
    · have := (snoc [] _ _ _ h).1
      exact absurd this.symm (hexText_ne _)
    · have := (snoc _ [] _ _ h).1
      exact absurd this (hexText_ne _)
    · rename_i h1 h2
      obtain ⟨h3, h4⟩ := snoc _ _ _ _ h
      have := ih (m / 16) (by omega) h3
      have := hexChar_inj (Nat.mod_lt _ (by omega)) (Nat.mod_lt _ (by omega)) h4
      omega

def fieldT (f : FieldView) : Name :=
  "0x".toList ++ hexText f.offset ++ ": ".toList ++ f.type ++ " ".toList ++ f.name ++
    (if f.traits ≠ [] then " ".toList ++ traitsT f.traits else [])

def FieldNamed (f : FieldView) : Prop := TypeName f.type ∧ Word f.name ∧ ∀ x ∈ f.traits, Word x

theorem fieldT_inj {f g : FieldView} (hf : FieldNamed f) (hg : FieldNamed g) (h : fieldT f = fieldT g) : f = g := by
  obtain ⟨o, t, n, tr⟩ := f
  obtain ⟨o', t', n', tr'⟩ := g
  obtain ⟨ft, fn, ftr⟩ := hf
  obtain ⟨gt, gn, gtr⟩ := hg
  simp only at ft fn ftr gt gn gtr
  unfold fieldT at h
  simp only [List.append_assoc] at h
  have h := List.append_cancel_left h
  simp only [show ": ".toList = [':', ' '] from rfl, List.cons_append, List.nil_append] at h
  obtain ⟨h1, h2⟩ := first_inj (fun hm => (hexText_ok o _ hm).1 rfl) (fun hm => (hexText_ok o' _ hm).1 rfl) h
  have h1 := hexText_inj h1
  simp only [List.cons.injEq, true_and] at h2
  -- the part before the traits, with the space that follows
  have hB : ∀ (t n : Name), TypeName t → Word n → ∀ a ∈ t ++ (" ".toList ++ n), a ≠ '[' := by
    intro t n ht hn a ha
    simp only [List.mem_append] at ha
    rcases ha with ha | ha | ha
    · exact (ht.chars a ha).2.2.2
    · revert ha; revert a; decide
    · exact (hn.2 a ha).2.2
  have sp : ∀ {x y r s : Name}, (∀ a ∈ x, a ≠ '[') → (∀ a ∈ y, a ≠ '[') →
      (r = [] ∨ ∃ r', r = ' ' :: '[' :: r') → (s = [] ∨ ∃ s', s = ' ' :: '[' :: s') →
      x ++ r = y ++ s → x.getLast? ≠ some ' ' → y.getLast? ≠ some ' ' → x = y ∧ r = s := by
    intro x y r s hx hy hr hs h lx ly
    rcases hr with rfl | ⟨r', rfl⟩ <;> rcases hs with rfl | ⟨s', rfl⟩
    · exact ⟨by simpa using h, rfl⟩
    · exfalso
      rw [List.append_nil] at h
      exact hx '[' (by rw [h]; simp) rfl
    · exfalso
      rw [List.append_nil] at h
      exact hy '[' (by rw [← h]; simp) rfl
    · have h' : (x ++ [' ']) ++ '[' :: r' = (y ++ [' ']) ++ '[' :: s' := by simpa using h
      obtain ⟨h1, h2⟩ := first_inj (c := '[')
        (fun hm => by
          rcases List.mem_append.1 hm with hm | hm
          · exact hx _ hm rfl
          · revert hm; decide)
        (fun hm => by
          rcases List.mem_append.1 hm with hm | hm
          · exact hy _ hm rfl
          · revert hm; decide) h'
      exact ⟨List.append_cancel_right h1, by rw [h2]⟩
  have last : ∀ (t n : Name), Word n → (t ++ (" ".toList ++ n)).getLast? ≠ some ' ' := by
    intro t n hn e
    rw [List.getLast?_append, List.getLast?_append] at e
    cases hl : n.getLast? with
    | none => exact hn.1 (List.getLast?_eq_none_iff.1 hl)
    | some c =>
      rw [hl] at e
      have e : some c = some ' ' := e
      obtain rfl := Option.some.inj e
      exact word_space hn (List.mem_of_getLast? hl)
  have shape : ∀ (tr : List Name), (if tr ≠ [] then " ".toList ++ traitsT tr else []) = [] ∨
      ∃ r', (if tr ≠ [] then " ".toList ++ traitsT tr else []) = ' ' :: '[' :: r' := by
    intro tr
    by_cases h : tr = []
    · exact .inl (by simp [h])
    · exact .inr ⟨_, by rw [if_pos h]; rfl⟩
  rw [← List.append_assoc " ".toList n, ← List.append_assoc t, ← List.append_assoc " ".toList n',
    ← List.append_assoc t'] at h2
  obtain ⟨h3, h4⟩ := sp (hB t n ft fn) (hB t' n' gt gn) (shape tr) (shape tr') h2 (last t n fn) (last t' n' gn)
  obtain ⟨h5, h6⟩ := last_inj (c := ' ') (word_space fn) (word_space gn) h3
  have h7 : tr = tr' := by
    by_cases c : tr = [] <;> by_cases c' : tr' = []
    · rw [c, c']
    · rw [if_neg (by simp [c]), if_pos c'] at h4; simp at h4
    · rw [if_pos c, if_neg (by simp [c'])] at h4; simp at h4
    · rw [if_pos c, if_pos c'] at h4
      exact traitsT_inj ftr gtr (List.append_cancel_left h4)
  rw [h1, h5, h6, h7]

theorem fieldT_line {f : FieldView} (hf : FieldNamed f) : '\n' ∉ fieldT f := by
  intro hm
  simp only [fieldT, List.mem_append] at hm
  rcases hm with (((((hm | hm) | hm) | hm) | hm) | hm) | hm
  · revert hm; decide
  · exact (hexText_ok _ _ hm).2.1 rfl
  · revert hm; decide
  · exact (hf.1.chars _ hm).1 rfl
  · revert hm; decide
  · exact (hf.2.1.2 _ hm).1 rfl
  · by_cases c : f.traits = []
    · rw [if_neg (by simp [c])] at hm; simp at hm
    · rw [if_pos c, List.mem_append] at hm
      rcases hm with hm | hm
      · revert hm; decide
      · exact traitsT_line hf.2.2 hm

theorem fieldT_prefix (f : FieldView) : "0x".toList <+: fieldT f := by
  unfold fieldT
  simp only [List.append_assoc]
  exact List.prefix_append _ _

/-! ### blocks -/

def traitsL (j : Nat) (ns : List Name) : List Line := if ns ≠ [] then [(j, traitsT ns)] else []

def fieldsL (j : Nat) (fs : List FieldView) : List Line := fs.map fun f => (j, fieldT f)

def groupL (j : Nat) (f : FnView) : Line × List Line :=
  ((j, f.name ++ ":".toList), traitsL (j + 4) f.traits ++ f.overloads.map fun s => (j + 4, sigT s))

def fnsL (j : Nat) (fs : List FnView) : List Line := (fs.map (groupL j)).flatMap fun g => g.1 :: g.2

def Pre (p : String) (l : Line) : Prop := p.toList <+: l.2

theorem traitsL_pre {j : Nat} {ns : List Name} : ∀ l ∈ traitsL j ns, l.1 = j ∧ Pre "[ " l := by
  intro l hl
  unfold traitsL at hl
  split at hl
  · rw [List.mem_singleton] at hl
    rw [hl]; exact ⟨rfl, traitsT_prefix ns⟩
  · simp at hl

theorem traitsL_inj {j : Nat} {a b : List Name} (ha : ∀ x ∈ a, Word x) (hb : ∀ x ∈ b, Word x)
    (h : traitsL j a = traitsL j b) : a = b := by
  unfold traitsL at h
  by_cases c : a = [] <;> by_cases c' : b = []
  · rw [c, c']
  · rw [if_neg (by simp [c]), if_pos c'] at h; simp at h
  · rw [if_pos c, if_neg (by simp [c'])] at h; simp at h
  · rw [if_pos c, if_pos c'] at h
    simp only [List.cons.injEq, Prod.mk.injEq, true_and, and_true] at h
    exact traitsT_inj ha hb h

theorem map_inj_on {α β : Type} {f : α → β} {q : α → Prop} (hf : ∀ a b, q a → q b → f a = f b → a = b) :
    ∀ {x y : List α}, (∀ a ∈ x, q a) → (∀ a ∈ y, q a) → x.map f = y.map f → x = y := by
  intro x
  induction x with
  | nil => intro y _ _ h; simpa using h.symm
  | cons a x ih =>
    intro y hx hy h
    cases y with
    | nil => simp at h
    | cons b y =>
      simp only [List.map_cons, List.cons.injEq] at h
      rw [hf a b (hx a (by simp)) (hy b (by simp)) h.1,
        ih (fun z hz => hx z (by simp [hz])) (fun z hz => hy z (by simp [hz])) h.2]

theorem fieldsL_inj {j : Nat} {a b : List FieldView} (ha : ∀ x ∈ a, FieldNamed x) (hb : ∀ x ∈ b, FieldNamed x)
    (h : fieldsL j a = fieldsL j b) : a = b :=
  map_inj_on (q := FieldNamed) (fun f g hf hg e => fieldT_inj hf hg (congrArg Prod.snd e)) ha hb h

theorem sigT_noPre {s : SigView} (hs : s.Named) : ¬ "[ ".toList <+: sigT s := by
  rintro ⟨r, e⟩
  cases hi : s.ret.id with
  | nil => exact hs.1.nonempty hi
  | cons c cs =>
    have : sigT s = c :: (cs ++ suffixT s.ret ++ "(".toList ++ argsT s.args ++ ")".toList) := by
      simp only [sigT, argText_suffix, hi, List.cons_append]
    rw [this] at e
    have : c = '[' := by
      have := congrArg List.head? e
      exact (Option.some.inj this).symm
    exact (hs.1.chars c (by rw [hi]; simp)).2.2.2 this

theorem sigsL_head {j : Nat} {l : List SigView} (h : ∀ s ∈ l, s.Named) :
    ∀ a, (l.map fun s => ((j, sigT s) : Line)).head? = some a → ¬ Pre "[ " a := by
  intro a ha
  cases l with
  | nil => simp at ha
  | cons s l =>
    simp only [List.map_cons, List.head?_cons, Option.some.injEq] at ha
    rw [← ha]
    exact sigT_noPre (h s (by simp))

theorem groupL_inj {j : Nat} {f g : FnView} (hf : f.Named) (hg : g.Named) (h : groupL j f = groupL j g) : f = g := by
  obtain ⟨n, tr, os⟩ := f
  obtain ⟨n', tr', os'⟩ := g
  unfold groupL at h
  simp only [Prod.mk.injEq, true_and] at h
  obtain ⟨h1, h2⟩ := h
  have h1 := List.append_cancel_right h1
  obtain ⟨h3, h4⟩ := while_inj (q := Pre "[ ") (fun a ha => (traitsL_pre a ha).2) (fun a ha => (traitsL_pre a ha).2)
    (sigsL_head hf.2.2) (sigsL_head hg.2.2) h2
  have h3 : tr = tr' := traitsL_inj hf.2.1 hg.2.1 h3
  have h4 : os = os' := map_inj_on (q := SigView.Named) (fun s t hs ht e => sigT_inj hs ht (congrArg Prod.snd e))
    hf.2.2 hg.2.2 h4
  rw [h1, h3, h4]

theorem group_indent (j : Nat) (fs : List FnView) :
    ∀ g ∈ fs.map (groupL j), g.1.1 = j ∧ ∀ a ∈ g.2, ¬ a.1 = j := by
  intro g hg
  obtain ⟨f, _, rfl⟩ := List.mem_map.1 hg
  refine ⟨rfl, ?_⟩
  intro a ha
  have : a.1 = j + 4 := by
    simp only [groupL, List.mem_append] at ha
    rcases ha with ha | ha
    · exact (traitsL_pre a ha).1
    · obtain ⟨s, _, rfl⟩ := List.mem_map.1 ha
      rfl
  omega

theorem fnsL_inj {j : Nat} {a b : List FnView} (ha : ∀ f ∈ a, f.Named) (hb : ∀ f ∈ b, f.Named)
    (h : fnsL j a = fnsL j b) : a = b := by
  have h := groups_inj (q := fun l : Line => l.1 = j) (group_indent j a) (group_indent j b) h
  exact map_inj_on (q := FnView.Named) (fun f g hf hg e => groupL_inj hf hg e) ha hb h

theorem fnsL_indent {j : Nat} {fs : List FnView} : ∀ l ∈ fnsL j fs, l.1 = j ∨ l.1 = j + 4 := by
  intro l hl
  simp only [fnsL, List.mem_flatMap] at hl
  obtain ⟨g, hg, hl⟩ := hl
  obtain ⟨f, _, rfl⟩ := List.mem_map.1 hg
  simp only [groupL, List.mem_cons, List.mem_append] at hl
  rcases hl with rfl | hl | hl
  · exact .inl rfl
  · exact .inr (traitsL_pre l hl).1
  · obtain ⟨s, _, rfl⟩ := List.mem_map.1 hl
    exact .inr rfl

/-- a function's heading is not like another entry -/
theorem head_noPre {p : String} {n : Name} (hp : ∃ q c, p.toList = q ++ [c] ∧ c ≠ ':')
    (h : ∀ a, n ≠ p.toList ++ a) : ¬ p.toList <+: n ++ ":".toList := by
  rintro ⟨r, e⟩
  obtain ⟨q, c, hq, hc⟩ := hp
  rcases List.append_eq_append_iff.1 e with ⟨u, h1, h2⟩ | ⟨u, h1, h2⟩
  · exact h u h1
  · cases u with
    | nil => exact h [] (by rw [h1]; simp)
    | cons d u =>
      have h2 : [':'] = d :: u ++ r := h2
      simp only [List.cons_append, List.cons.injEq] at h2
      have hu : u = [] := (List.append_eq_nil_iff.1 h2.2.symm).1
      rw [hu, ← h2.1, hq] at h1
      have := (List.append_inj' h1 rfl).2
      exact hc (by simpa using this)

theorem FnName.noPre {n : Name} (h : FnName n) :
    ¬ "type ".toList <+: n ++ ":".toList ∧ ¬ "scope ".toList <+: n ++ ":".toList ∧
    ¬ "[ ".toList <+: n ++ ":".toList ∧ ¬ "0x".toList <+: n ++ ":".toList :=
  ⟨head_noPre ⟨"type".toList, ' ', rfl, by decide⟩ h.noType,
    head_noPre ⟨"scope".toList, ' ', rfl, by decide⟩ h.noScope,
    head_noPre ⟨"[".toList, ' ', rfl, by decide⟩ h.noTraits,
    head_noPre ⟨"0".toList, 'x', rfl, by decide⟩ h.noField⟩

theorem fnsL_head {j : Nat} {fs : List FnView} (h : ∀ f ∈ fs, f.Named) {r : List Line} :
    ∀ l, (fnsL j fs ++ r).head? = some l →
      (¬ Pre "type " l ∧ ¬ Pre "scope " l ∧ ¬ Pre "[ " l ∧ ¬ Pre "0x" l) ∨ r.head? = some l := by
  intro l hl
  cases fs with
  | nil => exact .inr hl
  | cons f fs =>
    left
    simp only [fnsL, List.map_cons, List.flatMap_cons, List.cons_append, List.head?_cons, Option.some.injEq] at hl
    rw [← hl]
    exact FnName.noPre (h f (by simp)).1

theorem groups_clean {j : Nat} {fs : List FnView} (h : ∀ f ∈ fs, f.Named) : ∀ l ∈ fnsL j fs, Clean l ∧ l.2 ≠ [] := by
  intro l hl
  simp only [fnsL, List.mem_flatMap] at hl
  obtain ⟨g, hg, hl⟩ := hl
  obtain ⟨f, hf, rfl⟩ := List.mem_map.1 hg
  have hn := h f hf
  simp only [groupL, List.mem_cons, List.mem_append] at hl
  rcases hl with rfl | hl | hl
  · refine ⟨⟨?_, ?_⟩, by simp⟩
    · intro hm
      rcases List.mem_append.1 hm with hm | hm
      · exact hn.1.line hm
      · revert hm; decide
    · cases hc : f.name with
      | nil => exact absurd hc hn.1.nonempty
      | cons c cs =>
        have := hn.1.begins
        rw [hc] at this
        exact this
  · unfold traitsL at hl
    split at hl
    · rw [List.mem_singleton] at hl
      rw [hl]
      exact ⟨⟨traitsT_line hn.2.1, by simp [traitsT]⟩, by simp [traitsT]⟩
    · simp at hl
  · obtain ⟨s, hs, rfl⟩ := List.mem_map.1 hl
    have hs := hn.2.2 s hs
    refine ⟨⟨sigT_line hs, ?_⟩, by simp [sigT]⟩
    cases hi : s.ret.id with
    | nil => exact absurd hi hs.1.nonempty
    | cons c cs =>
      have := hs.1.begins
      rw [hi] at this
      have e : sigT s = c :: (cs ++ suffixT s.ret ++ "(".toList ++ argsT s.args ++ ")".toList) := by
        simp only [sigT, argText_suffix, hi, List.cons_append]
      show (sigT s).head? ≠ some ' '
      rw [e]
      exact this

end Reflect.Print
