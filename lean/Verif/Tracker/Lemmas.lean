import Verif.Tracker.Model

/-!
# Auxiliary facts on traces
-/

namespace Verif.Tracker

/-- `[mon]` if a monitor is used. -/
def monL (m : Bool) : List Ev := if m then [.mon] else []

/-- `[endTurn]` if end-turn actions are performed. -/
def endL (e : Bool) : List Ev := if e then [.endTurn] else []

/-- `n` copies. -/
def rep {α : Type} : Nat → List α → List α
  | 0, _ => []
  | n + 1, l => l ++ rep n l

theorem rep_add {α : Type} (m n : Nat) (l : List α) : rep (m + n) l = rep m l ++ rep n l := by
  induction m with
  | zero => simp [rep]
  | succ m ih => rw [Nat.succ_add]; simp only [rep, ih, List.append_assoc]

theorem rep_one {α : Type} (l : List α) : rep 1 l = l := by simp [rep]

theorem rep_mul {α : Type} (m n : Nat) (l : List α) : rep m (rep n l) = rep (m * n) l := by
  induction m with
  | zero => simp [rep]
  | succ m ih => rw [rep, ih, Nat.succ_mul, Nat.add_comm, rep_add]

theorem kernel_fwd (m e : Bool) (a n k : Nat) :
    kernel false m e a n k = rep k (monL m ++ eles a n ++ endL e) := by
  induction k with
  | zero => rfl
  | succ k ih => simp only [kernel, rep, ih]; rfl

theorem kernel_back (m e : Bool) (a n k : Nat) :
    kernel true m e a n k = rep k (endL e ++ elesBack a n ++ monL m) := by
  induction k with
  | zero => rfl
  | succ k ih => simp only [kernel, rep, ih]; rfl

theorem eles_append (a m n : Nat) : eles a (m + n) = eles a m ++ eles (a + m) n := by
  induction m generalizing a with
  | zero => simp [eles]
  | succ m ih =>
    rw [Nat.succ_add]
    simp only [eles, List.cons_append]
    rw [ih, show a + 1 + m = a + (m + 1) by omega]

theorem eles_reverse (a n : Nat) : (eles a n).reverse = elesBack a n := by
  induction n with
  | zero => rfl
  | succ n ih =>
    rw [eles_append a n 1, List.reverse_append, ih]
    rfl

/-- Forward tracking in one formula. -/
theorem track_fwd (L start : Nat) (m e : Bool) (startAt : Option Nat) (a : Args) (s : Segs)
    (h1 : startElement L startAt a = some start) (h2 : splitTurns L start a = some s) :
    track L false m e startAt a = some
      (monL m ++ eles start s.first ++ endL (e && (s.first + start == L)) ++
       rep s.mid (monL m ++ eles 0 L ++ endL e) ++
       (if 0 < s.last then monL m ++ eles 0 s.last else [])) := by
  unfold track
  rw [h1]
  simp only [Option.bind_eq_bind, Option.bind_some, h2, kernel_fwd, rep_one]
  congr 1
  congr 1
  · congr 1
    split
    · rfl
    · have : s.mid = 0 := by omega
      rw [this]; rfl
  · split
    · simp [endL]
    · rfl

end Verif.Tracker
