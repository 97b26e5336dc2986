import Verif.Lemmas.Wtf8Slice

/-! Validation errors: what `valid_up_to` and `error_len` promise. -/

namespace Verif.Wtf8

/-- What an error of the validator says about the scanned part. -/
def Prefix (i : Nat) (hi : Bool) (bs : Bytes) (e : Wtf8Error) : Prop :=
  (∃ k, e.validUpTo = i + k ∧ k < bs.length ∧ validateFrom i hi (bs.take k) = .ok () ∧
      (e.errorLen = none → bs.length ≤ k + 3)) ∨
    (hi = true ∧ e.validUpTo + 3 = i ∧ bs ≠ [] ∧ e.errorLen ≠ none)

theorem Prefix_step (i : Nat) (hi hi' : Bool) (u t : Bytes) (e : Wtf8Error) (n : Nat)
    (hn : u.length = n) (hpos : u ≠ [])
    (hs : ∀ t', validateFrom i hi (u ++ t') = validateFrom (i + n) hi' t')
    (h3 : hi' = true → n = 3) (h : Prefix (i + n) hi' t e) : Prefix i hi (u ++ t) e := by
  subst hn
  left
  have hp : 0 < u.length := List.length_pos_iff.mpr hpos
  rcases h with ⟨k, h1, h2, h3, h4⟩ | ⟨h1, h2, h4, h5⟩
  · exact ⟨u.length + k, by omega, by simp; omega, by rw [List.take_length_add_append, hs, h3],
      by intro h; have := h4 h; simp; omega⟩
  · have := h3 h1
    exact ⟨0, by omega, by simp; omega, by simp [validateFrom], by intro h; exact absurd h h5⟩

theorem short_of (b : UInt8) (t : Bytes)
    (h : ∀ (n n1 n2 : UInt8) (t' : List UInt8), t = n :: n1 :: n2 :: t' → False) :
    (b :: t).length ≤ 0 + 3 := by
  match t, h with
  | [], _ => simp
  | [_], _ => simp
  | [_, _], _ => simp
  | _ :: _ :: _ :: _, h => exact (h _ _ _ _ rfl).elim

theorem validateFrom_prefix (i : Nat) (hi : Bool) (bs : Bytes) (e : Wtf8Error)
    (h3 : hi = true → 3 ≤ i) (h : validateFrom i hi bs = .error e) : Prefix i hi bs e := by
  fun_induction validateFrom i hi bs
  all_goals try (injection h with h; subst h; left; refine ⟨0, rfl, by simp, by simp [validateFrom], ?_⟩; simp; done)
  · simp at h
  · rename_i ih
    exact Prefix_step _ _ false [_] _ e 1 rfl (by simp) (fun t' => by conv => lhs; unfold validateFrom
                                                                      simp [*]) (by simp) (ih (by simp) h)
  all_goals try (rename_i ih; exact Prefix_step _ _ false [_,_] _ e 2 rfl (by simp) (fun t' => by conv => lhs; unfold validateFrom
                                                                                                  simp [*]) (by simp) (ih (by simp) h); done)
  all_goals try (rename_i ih; exact Prefix_step _ _ false [_,_,_] _ e 3 rfl (by simp) (fun t' => by conv => lhs; unfold validateFrom
                                                                                                    simp [*]) (by simp) (ih (by simp) h); done)
  all_goals try (rename_i ih; exact Prefix_step _ _ true [_,_,_] _ e 3 rfl (by simp) (fun t' => by conv => lhs; unfold validateFrom
                                                                                                   simp [*]) (by simp) (ih (by simp) h); done)
  all_goals try (rename_i ih; exact Prefix_step _ _ false [_,_,_,_] _ e 4 rfl (by simp) (fun t' => by conv => lhs; unfold validateFrom
                                                                                                      simp [*]) (by simp) (ih (by simp) h); done)
  · injection h with h; subst h
    right
    exact ⟨rfl, by have := h3 rfl; simp; omega, by simp, by simp⟩
  all_goals
    injection h with h; subst h; left
    refine ⟨0, rfl, by simp, by simp [validateFrom], fun _ => ?_⟩
    exact short_of _ _ ‹∀ n n1 n2 t', _ = n :: n1 :: n2 :: t' → False›

end Verif.Wtf8
