f='/verif/lean/Verif/Props/JsonPlaceCalls.lean'
s=open(f).read()
s=s.replace("""    simp only at hj
    split at hj
    · cases hj
    · split at hj
      · rename_i hc; cases hj; exact hc
      · cases hj
""","""    simp only at hj
    generalize (if decide (s.head? = some 45) = true then s.tail else s) = ds at hj
    by_cases hd : ds = []
    · rw [if_pos hd] at hj; cases hj
    · rw [if_neg hd] at hj
      generalize (if decide (s.head? = some 45) = true then -(((ds.foldl (fun a d => a * 10 + (d.toNat - 48)) 0 : Nat)) : Int)
        else ((ds.foldl (fun a d => a * 10 + (d.toNat - 48)) 0 : Nat) : Int)) = v at hj
      by_cases hc : -(2 ^ 63 : Int) ≤ v ∧ v < 2 ^ 63
      · rw [if_pos hc] at hj; cases hj; exact hc
      · rw [if_neg hc] at hj; cases hj
""")
open(f,'w').write(s)
