import Verif.Model.Basic
/-!
# Reasoning about `Res`
-/

namespace CB.Res
variable {ε ε' α β : Type}

@[simp] theorem bind_def (x : Res ε α) (f : α → Res ε β) : (x >>= f) = x.bind f := rfl
@[simp] theorem pure_def (a : α) : (pure a : Res ε α) = ok a := rfl
@[simp] theorem ok_bind (a : α) (f : α → Res ε β) : (ok a : Res ε α).bind f = f a := rfl
@[simp] theorem err_bind (e : ε) (f : α → Res ε β) : (err e : Res ε α).bind f = err e := rfl
@[simp] theorem panic_bind (p : Panic) (f : α → Res ε β) : (panic p : Res ε α).bind f = panic p := rfl

@[simp] theorem bind_eq_ok {x : Res ε α} {f : α → Res ε β} {b : β} :
    x.bind f = ok b ↔ ∃ a, x = ok a ∧ f a = ok b := by
  cases x <;> simp [Res.bind]

theorem exists_unit {p : Unit → Prop} : (∃ u, p u) ↔ p () := ⟨fun ⟨_, h⟩ => h, fun h => ⟨(), h⟩⟩

@[simp high] theorem bind_unit_eq_ok {x : Res ε Unit} {f : Unit → Res ε β} {b : β} :
    x.bind f = ok b ↔ x = ok () ∧ f () = ok b := by
  cases x <;> simp [Res.bind]

theorem bind_eq_panic {x : Res ε α} {f : α → Res ε β} {p : Panic} :
    x.bind f = panic p ↔ x = panic p ∨ ∃ a, x = ok a ∧ f a = panic p := by
  cases x <;> simp [Res.bind]

theorem bind_eq_err {x : Res ε α} {f : α → Res ε β} {e : ε} :
    x.bind f = err e ↔ x = err e ∨ ∃ a, x = ok a ∧ f a = err e := by
  cases x <;> simp [Res.bind]

@[simp] theorem failIf_eq_ok {c : Bool} {e : ε} {u : Unit} : failIf c e = ok u ↔ c = false := by
  cases c <;> simp [failIf]

@[simp] theorem failIf_ne_panic {c : Bool} {e : ε} {p : Panic} : failIf c e = panic p ↔ False := by
  cases c <;> simp [failIf]

@[simp] theorem failIf_eq_err {c : Bool} {e e' : ε} : failIf c e = err e' ↔ c = true ∧ e = e' := by
  cases c <;> simp [failIf]

@[simp] theorem ofOption_eq_ok {o : Option α} {e : ε} {a : α} : ofOption o e = ok a ↔ o = some a := by
  cases o <;> simp [ofOption]

@[simp] theorem ofOption_ne_panic {o : Option α} {e : ε} {p : Panic} : ofOption o e = panic p ↔ False := by
  cases o <;> simp [ofOption]

@[simp] theorem ofOption_eq_err {o : Option α} {e e' : ε} : ofOption o e = err e' ↔ o = none ∧ e = e' := by
  cases o <;> simp [ofOption]

@[simp] theorem unwrap_eq_ok {o : Option α} {p : Panic} {a : α} : (unwrap o p : Res ε α) = ok a ↔ o = some a := by
  cases o <;> simp [unwrap]

@[simp] theorem unwrap_eq_panic {o : Option α} {p q : Panic} : (unwrap o p : Res ε α) = panic q ↔ o = none ∧ p = q := by
  cases o <;> simp [unwrap]

@[simp] theorem unwrap_ne_err {o : Option α} {p : Panic} {e : ε} : unwrap o p = err e ↔ False := by
  cases o <;> simp [unwrap]

@[simp] theorem mapErr_eq_ok {f : ε → ε'} {x : Res ε α} {a : α} : x.mapErr f = ok a ↔ x = ok a := by
  cases x <;> simp [mapErr]

@[simp] theorem mapErr_eq_panic {f : ε → ε'} {x : Res ε α} {p : Panic} : x.mapErr f = panic p ↔ x = panic p := by
  cases x <;> simp [mapErr]

theorem forEach_eq_ok {f : α → Res ε Unit} {l : List α} {u : Unit} : forEach f l = ok u ↔ ∀ x ∈ l, f x = ok () := by
  induction l with
  | nil => simp [forEach]
  | cons a l ih => simp [forEach, ih]

theorem forEach_eq_panic {f : α → Res ε Unit} {l : List α} {p : Panic} (h : forEach f l = panic p) :
    ∃ x ∈ l, f x = panic p := by
  induction l with
  | nil => simp [forEach] at h
  | cons a l ih =>
    rw [forEach, bind_eq_panic] at h
    rcases h with h | ⟨_, _, h⟩
    · exact ⟨a, by simp, h⟩
    · obtain ⟨x, hx, hp⟩ := ih h
      exact ⟨x, by simp [hx], hp⟩

theorem mapM'_eq_ok {f : α → Res ε β} {l : List α} {r : List β} : mapM' f l = ok r ↔ l.map f = r.map ok := by
  induction l generalizing r with
  | nil => cases r <;> simp [mapM']
  | cons a l ih =>
    simp only [mapM', bind_eq_ok, ih]
    constructor
    · rintro ⟨y, hy, ys, hys, h⟩
      cases h
      simp [hy, hys]
    · intro h
      cases r with
      | nil => simp at h
      | cons y ys =>
        simp only [List.map_cons, List.cons.injEq] at h
        exact ⟨y, h.1, ys, h.2, rfl⟩

theorem mapM'_eq_panic {f : α → Res ε β} {l : List α} {p : Panic} (h : mapM' f l = panic p) : ∃ x ∈ l, f x = panic p := by
  induction l with
  | nil => simp [mapM'] at h
  | cons a l ih =>
    simp only [mapM', bind_eq_panic] at h
    rcases h with h | ⟨_, _, h | ⟨_, _, h⟩⟩
    · exact ⟨a, by simp, h⟩
    · obtain ⟨x, hx, hp⟩ := ih h
      exact ⟨x, by simp [hx], hp⟩
    · cases h

theorem flatMapM_eq_ok {f : α → Res ε (List β)} {l : List α} {r : List β} :
    flatMapM f l = ok r ↔ ∃ rs : List (List β), l.map f = rs.map ok ∧ r = rs.flatten := by
  induction l generalizing r with
  | nil =>
    simp only [flatMapM, ok.injEq, List.map_nil]
    constructor
    · rintro rfl; exact ⟨[], by simp⟩
    · rintro ⟨rs, h, rfl⟩
      cases rs with
      | nil => rfl
      | cons => simp at h
  | cons a l ih =>
    simp only [flatMapM, bind_eq_ok, ih]
    constructor
    · rintro ⟨y, hy, ys, ⟨rs, hrs, rfl⟩, h⟩
      cases h
      exact ⟨y :: rs, by simp [hy, hrs], by simp⟩
    · rintro ⟨rs, h, rfl⟩
      cases rs with
      | nil => simp at h
      | cons y ys =>
        simp only [List.map_cons, List.cons.injEq] at h
        exact ⟨y, h.1, ys.flatten, ⟨ys, h.2, rfl⟩, by simp⟩

theorem flatMapM_eq_panic {f : α → Res ε (List β)} {l : List α} {p : Panic} (h : flatMapM f l = panic p) :
    ∃ x ∈ l, f x = panic p := by
  induction l with
  | nil => simp [flatMapM] at h
  | cons a l ih =>
    simp only [flatMapM, bind_eq_panic] at h
    rcases h with h | ⟨_, _, h | ⟨_, _, h⟩⟩
    · exact ⟨a, by simp, h⟩
    · obtain ⟨x, hx, hp⟩ := ih h
      exact ⟨x, by simp [hx], hp⟩
    · cases h

end CB.Res
