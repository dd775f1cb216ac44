import Verif.Lemmas.Json.Tables
/- A document is not nested deeper than the value it is the document of. -/
namespace Reflect.Json

variable {env : Env} {k : Bool}

theorem depthM_get {m : List (Bytes × JV)} {a : Bytes} {v : JV} (h : Assoc.get m a = some v) : v.depth ≤ JV.depthM m := by
  induction m with
  | nil => cases h
  | cons p m ih =>
    obtain ⟨b, w⟩ := p
    rw [Assoc.get] at h
    rw [JV.depthM]
    split at h
    · injection h with h; subst h; omega
    · have := ih h; omega

mutual
theorem doc_depth : ∀ {ty : TyId} {v : JV} {x : JTree}, Doc env k ty v x → x.depth ≤ v.depth
  | _, _, _, .bool .. => by simp [JTree.depth]
  | _, _, _, .int .. => by simp [JTree.depth]
  | _, _, _, .fltInt .. => by simp [JTree.depth]
  | _, _, _, .flt .. => by simp [JTree.depth]
  | _, _, _, .str .. => by simp [JTree.depth]
  | _, _, _, .null .. => by simp [JTree.depth]
  | _, _, _, .ptr _ _ _ _ _ _ h => by rw [JV.depth]; exact doc_depth h
  | _, _, _, .list _ _ _ _ _ _ h => by
    rw [JTree.depth, JV.depth]
    have := docElems_depth h
    omega
  | _, _, _, .map _ _ _ m es ms _ _ hg h => by
    rw [JTree.depth, JV.depth]
    have := docEntries_depth h (JV.depthM m) (fun p hp => depthM_get (hg p hp))
    omega
  | _, _, _, .obj _ _ fs l ms _ _ h => by
    rw [JTree.depth, JV.depth]
    have := docFields_depth h
    omega
termination_by structural _ _ _ h => h
theorem docElems_depth : ∀ {t : TyId} {vs : List JV} {xs : List JTree}, DocElems env k t vs xs →
    JTree.depthL xs ≤ JV.depthL vs
  | _, _, _, .nil _ => by simp [JTree.depthL]
  | _, _, _, .cons _ _ _ _ _ h1 h2 => by
    rw [JTree.depthL, JV.depthL]
    have := doc_depth h1
    have := docElems_depth h2
    omega
termination_by structural _ _ _ h => h
theorem docEntries_depth : ∀ {t : TyId} {es : List (Bytes × JV)} {ms : List (Bytes × JTree)}, DocEntries env k t es ms →
    ∀ (n : Nat), (∀ p ∈ es, p.2.depth ≤ n) → JTree.depthM ms ≤ n
  | _, _, _, .nil _, n, _ => by simp [JTree.depthM]
  | _, _, _, .cons _ _ _ _ _ _ h1 h2, n, hn => by
    rw [JTree.depthM]
    have := doc_depth h1
    have h3 := hn (_, _) (List.mem_cons_self ..)
    have := docEntries_depth h2 n (fun p hp => hn p (by simp [hp]))
    simp only at h3
    omega
termination_by structural _ _ _ h => h
theorem docFields_depth : ∀ {ty : TyId} {d : TyD} {fs : List (Bytes × JV)} {l : List (Bytes × FieldD)} {ms : List (Bytes × JTree)},
    DocFields env k ty d fs l ms → JTree.depthM ms ≤ JV.depthM fs
  | _, _, _, _, _, .nil .. => by simp [JTree.depthM]
  | _, _, _, _, _, .shown _ _ _ _ _ _ _ _ _ hg _ h1 h2 => by
    rw [JTree.depthM]
    have := doc_depth h1
    have := depthM_get hg
    have := docFields_depth h2
    omega
  | _, _, _, _, _, .omitted _ _ _ _ _ _ _ _ _ _ _ h2 => docFields_depth h2
termination_by structural _ _ _ _ _ h => h
end

end Reflect.Json
