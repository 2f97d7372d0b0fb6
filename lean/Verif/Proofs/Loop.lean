/-
Generic facts about counted loops.  A C loop `for (i = 0; i < n; i++) body` is
modelled everywhere as `(List.range n).foldl body s`.
-/
namespace Verif

/-- `for (i = 0; i < n; i++) s = f s i` -/
def loop {σ : Type _} (n : Nat) (f : σ → Nat → σ) (s : σ) : σ :=
  (List.range n).foldl f s

@[simp] theorem loop_zero {σ} (f : σ → Nat → σ) (s : σ) : loop 0 f s = s := rfl

theorem loop_succ {σ} (n : Nat) (f : σ → Nat → σ) (s : σ) :
    loop (n+1) f s = f (loop n f s) n := by
  simp [loop, List.range_succ]

theorem loop_inv {σ} {n : Nat} {f : σ → Nat → σ} {s : σ} (P : Nat → σ → Prop)
    (h0 : P 0 s) (hs : ∀ k t, k < n → P k t → P (k+1) (f t k)) : P n (loop n f s) := by
  induction n with
  | zero => simpa using h0
  | succ n ih =>
    rw [loop_succ]
    exact hs n _ (Nat.lt_succ_self n) (ih (fun k t hk => hs k t (Nat.lt_succ_of_lt hk)))

/-- invariant of a left fold, in terms of the processed prefix -/
theorem foldl_inv {σ α} {f : σ → α → σ} (l : List α) {s : σ} (P : List α → σ → Prop)
    (h0 : P [] s) (hs : ∀ pre a post t, l = pre ++ a :: post → P pre t → P (pre ++ [a]) (f t a)) :
    P l (l.foldl f s) := by
  have gen : ∀ (post pre : List α) (t : σ), l = pre ++ post → P pre t → P l (post.foldl f t) := by
    intro post
    induction post with
    | nil => intro pre t h hP; simp at h; subst h; simpa using hP
    | cons a post ih =>
      intro pre t h hP
      rw [List.foldl_cons]
      exact ih (pre ++ [a]) (f t a) (by simp [h]) (hs pre a post t h hP)
  exact gen l [] s (by simp) h0

end Verif
