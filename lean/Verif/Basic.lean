/-!
# Outcomes of C++ code

`ok a`   – normal return;
`throw`  – a C++ exception (`UTIL_CHECK`, `UTIL_THROW`, stream failure check);
`ub`     – undefined behaviour such as an out-of-range array access.
-/

namespace Verif

inductive Res (α : Type _) where
  | ok (a : α)
  | throw
  | ub
deriving Repr

instance {α : Type _} [DecidableEq α] : DecidableEq (Res α)
  | .ok a, .ok b => if h : a = b then .isTrue (by rw [h]) else .isFalse (fun e => h (by cases e; rfl))
  | .throw, .throw => .isTrue rfl
  | .ub, .ub => .isTrue rfl
  | .ok _, .throw => .isFalse nofun
  | .ok _, .ub => .isFalse nofun
  | .throw, .ok _ => .isFalse nofun
  | .throw, .ub => .isFalse nofun
  | .ub, .ok _ => .isFalse nofun
  | .ub, .throw => .isFalse nofun

namespace Res

def bind {α β} (x : Res α) (f : α → Res β) : Res β :=
  match x with
  | ok a => f a
  | throw => throw
  | ub => ub

def map {α β} (f : α → β) (x : Res α) : Res β :=
  match x with
  | ok a => ok (f a)
  | throw => throw
  | ub => ub

instance : Monad Res where
  pure := ok
  bind := bind

@[simp] theorem pure_eq {α} (a : α) : (pure a : Res α) = ok a := rfl
@[simp] theorem ok_bind {α β} (a : α) (f : α → Res β) : (ok a >>= f) = f a := rfl
@[simp] theorem throw_bind {α β} (f : α → Res β) : ((throw : Res α) >>= f) = throw := rfl
@[simp] theorem ub_bind {α β} (f : α → Res β) : ((ub : Res α) >>= f) = ub := rfl
@[simp] theorem map_ok {α β} (a : α) (f : α → β) : map f (ok a) = ok (f a) := rfl
@[simp] theorem map_throw {α β} (f : α → β) : map f (throw : Res α) = throw := rfl
@[simp] theorem map_ub {α β} (f : α → β) : map f (ub : Res α) = ub := rfl

/-- `UTIL_CHECK(b)`. -/
def check (b : Bool) : Res Unit := if b then ok () else throw

@[simp] theorem check_true : check true = ok () := rfl
@[simp] theorem check_false : check false = throw := rfl

theorem bind_eq_ok {α β} {x : Res α} {f : α → Res β} {b : β} :
    (x >>= f) = ok b ↔ ∃ a, x = ok a ∧ f a = ok b := by
  cases x <;> simp

end Res
end Verif
