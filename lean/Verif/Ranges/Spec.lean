import Verif.Ranges.Model

/-! What a twiss table over a range has to be, independently of how it is put together. -/

namespace Verif.Ranges

variable {Opt : Type}

/-- A line as the environment guarantees it: unique names, none of them `_end_point`, markers do
nothing. -/
structure WellFormed (L : Lat Opt) : Prop where
  nodup : L.names.Nodup
  noend : "_end_point" ∉ L.names
  thin : ∀ k, L.marker k = true → L.step k = Equiv.refl Opt ∧ (∀ o, L.adv k o = 0)
    ∧ (∀ o, L.advz k o = 0) ∧ L.len k = 0

/-- Number of elements from position `a` to position `b`, going on over the end of the line. -/
def span (L : Lat Opt) (a b : ℕ) : ℕ := if a ≤ b then b - a else b + L.n - a

/-- The table `t` shows, for `m` elements from position `a`, the values `v 0, v 1, …` at their
entrances and `v m` at the end, and these values follow from each other through the elements: the
optics is transformed by each element, phases and `s` increase by its phase advance and length. -/
def Shows (L : Lat Opt) (t : List (Row Opt)) (a m : ℕ) (v : ℕ → Val Opt) : Prop :=
  t = (List.range m).map (fun i => ⟨L.name (a + i), v i⟩) ++ [⟨"_end_point", v m⟩] ∧
    ∀ i < m, v (i + 1) = L.next (a + i) (v i)

/-- As `Shows`, but nothing is said on the column `muzeta`. -/
def ShowsTransverse (L : Lat Opt) (t : List (Row Opt)) (a m : ℕ) (v : ℕ → Val Opt) : Prop :=
  t = (List.range m).map (fun i => ⟨L.name (a + i), v i⟩) ++ [⟨"_end_point", v m⟩] ∧
    ∀ i < m, (v (i + 1)).opt = (L.next (a + i) (v i)).opt ∧ (v (i + 1)).mu = (L.next (a + i) (v i)).mu
      ∧ (v (i + 1)).s = (L.next (a + i) (v i)).s

/-- Table of the whole line, from periodic optics: same optics after a turn, phases and `s` from
zero. -/
def PeriodicTable (L : Lat Opt) (t : List (Row Opt)) : Prop :=
  ∃ v : ℕ → Val Opt, Shows L t 0 L.n v ∧ (v L.n).opt = (v 0).opt ∧ (v 0).mu = 0 ∧ (v 0).muz = 0
    ∧ (v 0).s = 0

end Verif.Ranges
