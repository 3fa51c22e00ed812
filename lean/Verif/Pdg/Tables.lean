import Mathlib.Data.Int.Notation
import Mathlib.Data.Nat.Notation

/-!
# Names of particles and their numbers (C119)

Modelled: `/repo/xtrack/particles/pdg.py`: the tables, `get_properties_from_pdg_id`, `get_name_from_pdg_id`, `get_pdg_id_from_name`, `get_pdg_id_ion`, `is_ion`,
`_flip_end_sign` and the changes of script.  Texts are lists of characters.  The divisions `int(x / 1e4)` in floating point are exact for these numbers and
are modelled as divisions of integers.  Lower case is modelled for the Latin and Greek letters.  Not modelled: arrays of names or numbers.
-/

namespace Verif.Pdg

abbrev Text := List Char

/-- A row of the table: number, charge, names. -/
structure Entry where
  id : ℤ
  charge : ℤ
  names : List Text

/-- `pdg_table`, lines 25-73. -/
abbrev table : List Entry := [
  ⟨0, 0, [['u','n','d','e','f','i','n','e','d']]⟩,
  ⟨11, -1, [['e','⁻'], ['e'], ['e','l','e','c','t','r','o','n']]⟩,
  ⟨-11, 1, [['e','⁺'], ['p','o','s','i','t','r','o','n']]⟩,
  ⟨12, 0, [['ν','ₑ'], ['e','l','e','c','t','r','o','n',' ','n','e','u','t','r','i','n','o']]⟩,
  ⟨13, -1, [['μ','⁻'], ['μ'], ['m','u','o','n','-'], ['m','u','o','n']]⟩,
  ⟨-13, 1, [['μ','⁺'], ['m','u','o','n','+'], ['a','n','t','i','-','m','u','o','n']]⟩,
  ⟨14, 0, [['ν','μ'], ['m','u','o','n',' ','n','e','u','t','r','i','n','o']]⟩,
  ⟨15, -1, [['τ','⁻'], ['τ'], ['t','a','u','-'], ['t','a','u']]⟩,
  ⟨-15, 1, [['τ','⁺'], ['t','a','u','+'], ['a','n','t','i','-','t','a','u']]⟩,
  ⟨16, 0, [['ν','τ'], ['t','a','u',' ','n','e','u','t','r','i','n','o']]⟩,
  ⟨22, 0, [['γ','⁰'], ['γ'], ['g','a','m','m','a'], ['p','h','o','t','o','n']]⟩,
  ⟨111, 0, [['π','⁰'], ['π'], ['p','i','o','n'], ['p','i','o','n','0'], ['p','i','0']]⟩,
  ⟨211, 1, [['π','⁺'], ['p','i','o','n','+'], ['p','i','+']]⟩,
  ⟨-211, -1, [['π','⁻'], ['p','i','o','n','-'], ['p','i','-']]⟩,
  ⟨311, 0, [['K','⁰'], ['k','a','o','n'], ['k','a','o','n','0']]⟩,
  ⟨321, 1, [['K','⁺'], ['k','a','o','n','+']]⟩,
  ⟨-321, -1, [['K','⁻'], ['k','a','o','n','-']]⟩,
  ⟨130, 0, [['K','L'], ['l','o','n','g',' ','k','a','o','n']]⟩,
  ⟨310, 0, [['K','ₛ'], ['s','h','o','r','t',' ','k','a','o','n']]⟩,
  ⟨421, 0, [['D','⁰'], ['D']]⟩,
  ⟨411, 1, [['D','⁺']]⟩,
  ⟨-411, -1, [['D','⁻']]⟩,
  ⟨431, 1, [['D','ₛ','⁺']]⟩,
  ⟨-431, -1, [['D','ₛ','⁻']]⟩,
  ⟨2212, 1, [['p','⁺'], ['p'], ['p','r','o','t','o','n']]⟩,
  ⟨-2212, -1, [['p','⁻'], ['a','n','t','i','-','p','r','o','t','o','n']]⟩,
  ⟨2112, 0, [['n','⁰'], ['n'], ['n','e','u','t','r','o','n']]⟩,
  ⟨2224, 2, [['Δ','⁺','⁺'], ['d','e','l','t','a','+','+']]⟩,
  ⟨2214, 1, [['Δ','⁺'], ['d','e','l','t','a','+']]⟩,
  ⟨2114, 0, [['Δ','⁰'], ['d','e','l','t','a','0']]⟩,
  ⟨1114, -1, [['Δ','⁻'], ['d','e','l','t','a','-']]⟩,
  ⟨3122, 0, [['Λ','⁰'], ['Λ'], ['l','a','m','b','d','a']]⟩,
  ⟨4122, 1, [['Λ','c','⁺'], ['l','a','m','b','d','a','c','+']]⟩,
  ⟨3222, 1, [['Σ','⁺'], ['s','i','g','m','a','+']]⟩,
  ⟨3212, 0, [['Σ','⁰'], ['Σ'], ['s','i','g','m','a'], ['s','i','g','m','a','0']]⟩,
  ⟨3112, -1, [['Σ','⁻'], ['s','i','g','m','a','-']]⟩,
  ⟨3322, 0, [['Ξ','⁰'], ['Ξ'], ['x','i'], ['x','i','0']]⟩,
  ⟨3312, -1, [['Ξ','⁻'], ['x','i','-']]⟩,
  ⟨4132, 0, [['Ξ','c','⁰'], ['Ξ','c'], ['x','i','c'], ['x','i','c','0']]⟩,
  ⟨4232, 1, [['Ξ','c','⁺'], ['x','i','c','+']]⟩,
  ⟨4312, 0, [['Ξ','\'','c','⁰'], ['Ξ','\'','c'], ['x','i','p','r','i','m','e','c'], ['x','i','p','r','i','m','e','c','0']]⟩,
  ⟨4322, 1, [['Ξ','\'','c','⁺'], ['x','i','p','r','i','m','e','c','+']]⟩,
  ⟨3334, -1, [['Ω','⁻'], ['o','m','e','g','a','-']]⟩,
  ⟨4332, 0, [['Ω','c','⁰'], ['Ω','c'], ['o','m','e','g','a','c'], ['o','m','e','g','a','c','0']]⟩,
  ⟨1000010020, 1, [['²','H'], ['H','2'], ['h','y','d','r','o','g','e','n','-','2'], ['d','e','u','t','e','r','o','n']]⟩,
  ⟨1000010030, 1, [['³','H'], ['H','3'], ['h','y','d','r','o','g','e','n','-','3'], ['t','r','i','t','o','n']]⟩]

/-- `elements`, lines 75-88. -/
abbrev elements : List (ℕ × Text) := [
  (1, ['H']), (2, ['H','e']), (3, ['L','i']), (4, ['B','e']), (5, ['B']), (6, ['C']),
  (7, ['N']), (8, ['O']), (9, ['F']), (10, ['N','e']), (11, ['N','a']), (12, ['M','g']),
  (13, ['A','l']), (14, ['S','i']), (15, ['P']), (16, ['S']), (17, ['C','l']), (18, ['A','r']),
  (19, ['K']), (20, ['C','a']), (21, ['S','c']), (22, ['T','i']), (23, ['V']), (24, ['C','r']),
  (25, ['M','n']), (26, ['F','e']), (27, ['C','o']), (28, ['N','i']), (29, ['C','u']), (30, ['Z','n']),
  (31, ['G','a']), (32, ['G','e']), (33, ['A','s']), (34, ['S','e']), (35, ['B','r']), (36, ['K','r']),
  (37, ['R','b']), (38, ['S','r']), (39, ['Y']), (40, ['Z','r']), (41, ['N','b']), (42, ['M','o']),
  (43, ['T','c']), (44, ['R','u']), (45, ['R','h']), (46, ['P','d']), (47, ['A','g']), (48, ['C','d']),
  (49, ['I','n']), (50, ['S','n']), (51, ['S','b']), (52, ['T','e']), (53, ['I']), (54, ['X','e']),
  (55, ['C','s']), (56, ['B','a']), (57, ['L','a']), (58, ['C','e']), (59, ['P','r']), (60, ['N','d']),
  (61, ['P','m']), (62, ['S','m']), (63, ['E','u']), (64, ['G','d']), (65, ['T','b']), (66, ['D','y']),
  (67, ['H','o']), (68, ['E','r']), (69, ['T','m']), (70, ['Y','b']), (71, ['L','u']), (72, ['H','f']),
  (73, ['T','a']), (74, ['W']), (75, ['R','e']), (76, ['O','s']), (77, ['I','r']), (78, ['P','t']),
  (79, ['A','u']), (80, ['H','g']), (81, ['T','l']), (82, ['P','b']), (83, ['B','i']), (84, ['P','o']),
  (85, ['A','t']), (86, ['R','n']), (87, ['F','r']), (88, ['R','a']), (89, ['A','c']), (90, ['T','h']),
  (91, ['P','a']), (92, ['U']), (93, ['N','p']), (94, ['P','u']), (95, ['A','m']), (96, ['C','m']),
  (97, ['B','k']), (98, ['C','f']), (99, ['E','s']), (100, ['F','m']), (101, ['M','d']), (102, ['N','o']),
  (103, ['L','r']), (104, ['R','f']), (105, ['D','b']), (106, ['S','g']), (107, ['B','h']), (108, ['H','s']),
  (109, ['M','t']), (110, ['D','s']), (111, ['R','g']), (112, ['C','n']), (113, ['N','h']), (114, ['F','l']),
  (115, ['M','c']), (116, ['L','v']), (117, ['T','s']), (118, ['O','g'])]

/-- `elements_long`, lines 91-116. -/
abbrev elementsLong : List (ℕ × Text) := [
  (1, ['H','y','d','r','o','g','e','n']), (2, ['H','e','l','i','u','m']), (3, ['L','i','t','h','i','u','m']),
  (4, ['B','e','r','y','l','l','i','u','m']), (5, ['B','o','r','o','n']), (6, ['C','a','r','b','o','n']),
  (7, ['N','i','t','r','o','g','e','n']), (8, ['O','x','y','g','e','n']), (9, ['F','l','u','o','r','i','n','e']),
  (10, ['N','e','o','n']), (11, ['S','o','d','i','u','m']), (12, ['M','a','g','n','e','s','i','u','m']),
  (13, ['A','l','u','m','i','n','u','m']), (14, ['S','i','l','i','c','o','n']), (15, ['P','h','o','s','p','h','o','r','u','s']),
  (16, ['S','u','l','f','u','r']), (17, ['C','h','l','o','r','i','n','e']), (18, ['A','r','g','o','n']),
  (19, ['P','o','t','a','s','s','i','u','m']), (20, ['C','a','l','c','i','u','m']), (21, ['S','c','a','n','d','i','u','m']),
  (22, ['T','i','t','a','n','i','u','m']), (23, ['V','a','n','a','d','i','u','m']), (24, ['C','h','r','o','m','i','u','m']),
  (25, ['M','a','n','g','a','n','e','s','e']), (26, ['I','r','o','n']), (27, ['C','o','b','a','l','t']),
  (28, ['N','i','c','k','e','l']), (29, ['C','o','p','p','e','r']), (30, ['Z','i','n','c']),
  (31, ['G','a','l','l','i','u','m']), (32, ['G','e','r','m','a','n','i','u','m']), (33, ['A','r','s','e','n','i','c']),
  (34, ['S','e','l','e','n','i','u','m']), (35, ['B','r','o','m','i','n','e']), (36, ['K','r','y','p','t','o','n']),
  (37, ['R','u','b','i','d','i','u','m']), (38, ['S','t','r','o','n','t','i','u','m']), (39, ['Y','t','t','r','i','u','m']),
  (40, ['Z','i','r','c','o','n','i','u','m']), (41, ['N','i','o','b','i','u','m']), (42, ['M','o','l','y','b','d','e','n','u','m']),
  (43, ['T','e','c','h','n','e','t','i','u','m']), (44, ['R','u','t','h','e','n','i','u','m']), (45, ['R','h','o','d','i','u','m']),
  (46, ['P','a','l','l','a','d','i','u','m']), (47, ['S','i','l','v','e','r']), (48, ['C','a','d','m','i','u','m']),
  (49, ['I','n','d','i','u','m']), (50, ['T','i','n']), (51, ['A','n','t','i','m','o','n','y']),
  (52, ['T','e','l','l','u','r','i','u','m']), (53, ['I','o','d','i','n','e']), (54, ['X','e','n','o','n']),
  (55, ['C','e','s','i','u','m']), (56, ['B','a','r','i','u','m']), (57, ['L','a','n','t','h','a','n','u','m']),
  (58, ['C','e','r','i','u','m']), (59, ['P','r','a','s','e','o','d','y','m','i','u','m']), (60, ['N','e','o','d','y','m','i','u','m']),
  (61, ['P','r','o','m','e','t','h','i','u','m']), (62, ['S','a','m','a','r','i','u','m']), (63, ['E','u','r','o','p','i','u','m']),
  (64, ['G','a','d','o','l','i','n','i','u','m']), (65, ['T','e','r','b','i','u','m']), (66, ['D','y','s','p','r','o','s','i','u','m']),
  (67, ['H','o','l','m','i','u','m']), (68, ['E','r','b','i','u','m']), (69, ['T','h','u','l','i','u','m']),
  (70, ['Y','t','t','e','r','b','i','u','m']), (71, ['L','u','t','e','t','i','u','m']), (72, ['H','a','f','n','i','u','m']),
  (73, ['T','a','n','t','a','l','u','m']), (74, ['T','u','n','g','s','t','e','n']), (75, ['R','h','e','n','i','u','m']),
  (76, ['O','s','m','i','u','m']), (77, ['I','r','i','d','i','u','m']), (78, ['P','l','a','t','i','n','u','m']),
  (79, ['G','o','l','d']), (80, ['M','e','r','c','u','r','y']), (81, ['T','h','a','l','l','i','u','m']),
  (82, ['L','e','a','d']), (83, ['B','i','s','m','u','t','h']), (84, ['P','o','l','o','n','i','u','m']),
  (85, ['A','s','t','a','t','i','n','e']), (86, ['R','a','d','o','n']), (87, ['F','r','a','n','c','i','u','m']),
  (88, ['R','a','d','i','u','m']), (89, ['A','c','t','i','n','i','u','m']), (90, ['T','h','o','r','i','u','m']),
  (91, ['P','r','o','t','a','c','t','i','n','i','u','m']), (92, ['U','r','a','n','i','u','m']), (93, ['N','e','p','t','u','n','i','u','m']),
  (94, ['P','l','u','t','o','n','i','u','m']), (95, ['A','m','e','r','i','c','i','u','m']), (96, ['C','u','r','i','u','m']),
  (97, ['B','e','r','k','e','l','i','u','m']), (98, ['C','a','l','i','f','o','r','n','i','u','m']), (99, ['E','i','n','s','t','e','i','n','i','u','m']),
  (100, ['F','e','r','m','i','u','m']), (101, ['M','e','n','d','e','l','e','v','i','u','m']), (102, ['N','o','b','e','l','i','u','m']),
  (103, ['L','a','w','r','e','n','c','i','u','m']), (104, ['R','u','t','h','e','r','f','o','r','d','i','u','m']), (105, ['D','u','b','n','i','u','m']),
  (106, ['S','e','a','b','o','r','g','i','u','m']), (107, ['B','o','h','r','i','u','m']), (108, ['H','a','s','s','i','u','m']),
  (109, ['M','e','i','t','n','e','r','i','u','m']), (110, ['D','a','r','m','s','t','a','d','t','i','u','m']), (111, ['R','o','e','n','t','g','e','n','i','u','m']),
  (112, ['C','o','p','e','r','n','i','c','i','u','m']), (113, ['N','i','h','o','n','i','u','m']), (114, ['F','l','e','r','o','v','i','u','m']),
  (115, ['M','o','s','c','o','v','i','u','m']), (116, ['L','i','v','e','r','m','o','r','i','u','m']), (117, ['T','e','n','n','e','s','s','i','n','e']),
  (118, ['O','g','a','n','e','s','s','o','n'])]

end Verif.Pdg
