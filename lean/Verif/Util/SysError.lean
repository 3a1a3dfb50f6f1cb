import Verif.Str.Ints

/-
Model of `SystemException` (SystemException.h 16-34, SystemException.cpp 18-201) and of `STINGRAYKIT_THROW_SYSTEM_EXCEPTION` (SystemException.h 36-49).  The numbers of errors are those of Linux
(asm-generic/errno.h); what `strerror_r` says is any text.  The types of exceptions thrown by the macro are only distinguished, not modelled; running out of memory is not modelled.
-/
namespace Verif.Util.SysError
open Verif.Str

/-- The macros of the system: the values behind the names in SystemException.cpp 52-196. -/
def header : List (List Char × Int) := [
  (['E', 'P', 'E', 'R', 'M'], 1),
  (['E', 'N', 'O', 'E', 'N', 'T'], 2),
  (['E', 'S', 'R', 'C', 'H'], 3),
  (['E', 'I', 'N', 'T', 'R'], 4),
  (['E', 'I', 'O'], 5),
  (['E', 'N', 'X', 'I', 'O'], 6),
  (['E', '2', 'B', 'I', 'G'], 7),
  (['E', 'N', 'O', 'E', 'X', 'E', 'C'], 8),
  (['E', 'B', 'A', 'D', 'F'], 9),
  (['E', 'C', 'H', 'I', 'L', 'D'], 10),
  (['E', 'A', 'G', 'A', 'I', 'N'], 11),
  (['E', 'N', 'O', 'M', 'E', 'M'], 12),
  (['E', 'A', 'C', 'C', 'E', 'S'], 13),
  (['E', 'F', 'A', 'U', 'L', 'T'], 14),
  (['E', 'N', 'O', 'T', 'B', 'L', 'K'], 15),
  (['E', 'B', 'U', 'S', 'Y'], 16),
  (['E', 'E', 'X', 'I', 'S', 'T'], 17),
  (['E', 'X', 'D', 'E', 'V'], 18),
  (['E', 'N', 'O', 'D', 'E', 'V'], 19),
  (['E', 'N', 'O', 'T', 'D', 'I', 'R'], 20),
  (['E', 'I', 'S', 'D', 'I', 'R'], 21),
  (['E', 'I', 'N', 'V', 'A', 'L'], 22),
  (['E', 'N', 'F', 'I', 'L', 'E'], 23),
  (['E', 'M', 'F', 'I', 'L', 'E'], 24),
  (['E', 'N', 'O', 'T', 'T', 'Y'], 25),
  (['E', 'T', 'X', 'T', 'B', 'S', 'Y'], 26),
  (['E', 'F', 'B', 'I', 'G'], 27),
  (['E', 'N', 'O', 'S', 'P', 'C'], 28),
  (['E', 'S', 'P', 'I', 'P', 'E'], 29),
  (['E', 'R', 'O', 'F', 'S'], 30),
  (['E', 'M', 'L', 'I', 'N', 'K'], 31),
  (['E', 'P', 'I', 'P', 'E'], 32),
  (['E', 'D', 'O', 'M'], 33),
  (['E', 'R', 'A', 'N', 'G', 'E'], 34),
  (['E', 'D', 'E', 'A', 'D', 'L', 'K'], 35),
  (['E', 'N', 'A', 'M', 'E', 'T', 'O', 'O', 'L', 'O', 'N', 'G'], 36),
  (['E', 'N', 'O', 'L', 'C', 'K'], 37),
  (['E', 'N', 'O', 'S', 'Y', 'S'], 38),
  (['E', 'N', 'O', 'T', 'E', 'M', 'P', 'T', 'Y'], 39),
  (['E', 'L', 'O', 'O', 'P'], 40),
  (['E', 'N', 'O', 'M', 'S', 'G'], 42),
  (['E', 'I', 'D', 'R', 'M'], 43),
  (['E', 'C', 'H', 'R', 'N', 'G'], 44),
  (['E', 'L', '2', 'N', 'S', 'Y', 'N', 'C'], 45),
  (['E', 'L', '3', 'H', 'L', 'T'], 46),
  (['E', 'L', '3', 'R', 'S', 'T'], 47),
  (['E', 'L', 'N', 'R', 'N', 'G'], 48),
  (['E', 'U', 'N', 'A', 'T', 'C', 'H'], 49),
  (['E', 'N', 'O', 'C', 'S', 'I'], 50),
  (['E', 'L', '2', 'H', 'L', 'T'], 51),
  (['E', 'B', 'A', 'D', 'E'], 52),
  (['E', 'B', 'A', 'D', 'R'], 53),
  (['E', 'X', 'F', 'U', 'L', 'L'], 54),
  (['E', 'N', 'O', 'A', 'N', 'O'], 55),
  (['E', 'B', 'A', 'D', 'R', 'Q', 'C'], 56),
  (['E', 'B', 'A', 'D', 'S', 'L', 'T'], 57),
  (['E', 'B', 'F', 'O', 'N', 'T'], 59),
  (['E', 'N', 'O', 'S', 'T', 'R'], 60),
  (['E', 'N', 'O', 'D', 'A', 'T', 'A'], 61),
  (['E', 'T', 'I', 'M', 'E'], 62),
  (['E', 'N', 'O', 'S', 'R'], 63),
  (['E', 'N', 'O', 'N', 'E', 'T'], 64),
  (['E', 'N', 'O', 'P', 'K', 'G'], 65),
  (['E', 'R', 'E', 'M', 'O', 'T', 'E'], 66),
  (['E', 'N', 'O', 'L', 'I', 'N', 'K'], 67),
  (['E', 'A', 'D', 'V'], 68),
  (['E', 'S', 'R', 'M', 'N', 'T'], 69),
  (['E', 'C', 'O', 'M', 'M'], 70),
  (['E', 'P', 'R', 'O', 'T', 'O'], 71),
  (['E', 'M', 'U', 'L', 'T', 'I', 'H', 'O', 'P'], 72),
  (['E', 'D', 'O', 'T', 'D', 'O', 'T'], 73),
  (['E', 'B', 'A', 'D', 'M', 'S', 'G'], 74),
  (['E', 'O', 'V', 'E', 'R', 'F', 'L', 'O', 'W'], 75),
  (['E', 'N', 'O', 'T', 'U', 'N', 'I', 'Q'], 76),
  (['E', 'B', 'A', 'D', 'F', 'D'], 77),
  (['E', 'R', 'E', 'M', 'C', 'H', 'G'], 78),
  (['E', 'L', 'I', 'B', 'A', 'C', 'C'], 79),
  (['E', 'L', 'I', 'B', 'B', 'A', 'D'], 80),
  (['E', 'L', 'I', 'B', 'S', 'C', 'N'], 81),
  (['E', 'L', 'I', 'B', 'M', 'A', 'X'], 82),
  (['E', 'L', 'I', 'B', 'E', 'X', 'E', 'C'], 83),
  (['E', 'I', 'L', 'S', 'E', 'Q'], 84),
  (['E', 'R', 'E', 'S', 'T', 'A', 'R', 'T'], 85),
  (['E', 'S', 'T', 'R', 'P', 'I', 'P', 'E'], 86),
  (['E', 'U', 'S', 'E', 'R', 'S'], 87),
  (['E', 'N', 'O', 'T', 'S', 'O', 'C', 'K'], 88),
  (['E', 'D', 'E', 'S', 'T', 'A', 'D', 'D', 'R', 'R', 'E', 'Q'], 89),
  (['E', 'M', 'S', 'G', 'S', 'I', 'Z', 'E'], 90),
  (['E', 'P', 'R', 'O', 'T', 'O', 'T', 'Y', 'P', 'E'], 91),
  (['E', 'N', 'O', 'P', 'R', 'O', 'T', 'O', 'O', 'P', 'T'], 92),
  (['E', 'P', 'R', 'O', 'T', 'O', 'N', 'O', 'S', 'U', 'P', 'P', 'O', 'R', 'T'], 93),
  (['E', 'S', 'O', 'C', 'K', 'T', 'N', 'O', 'S', 'U', 'P', 'P', 'O', 'R', 'T'], 94),
  (['E', 'O', 'P', 'N', 'O', 'T', 'S', 'U', 'P', 'P'], 95),
  (['E', 'P', 'F', 'N', 'O', 'S', 'U', 'P', 'P', 'O', 'R', 'T'], 96),
  (['E', 'A', 'F', 'N', 'O', 'S', 'U', 'P', 'P', 'O', 'R', 'T'], 97),
  (['E', 'A', 'D', 'D', 'R', 'I', 'N', 'U', 'S', 'E'], 98),
  (['E', 'A', 'D', 'D', 'R', 'N', 'O', 'T', 'A', 'V', 'A', 'I', 'L'], 99),
  (['E', 'N', 'E', 'T', 'D', 'O', 'W', 'N'], 100),
  (['E', 'N', 'E', 'T', 'U', 'N', 'R', 'E', 'A', 'C', 'H'], 101),
  (['E', 'N', 'E', 'T', 'R', 'E', 'S', 'E', 'T'], 102),
  (['E', 'C', 'O', 'N', 'N', 'A', 'B', 'O', 'R', 'T', 'E', 'D'], 103),
  (['E', 'C', 'O', 'N', 'N', 'R', 'E', 'S', 'E', 'T'], 104),
  (['E', 'N', 'O', 'B', 'U', 'F', 'S'], 105),
  (['E', 'I', 'S', 'C', 'O', 'N', 'N'], 106),
  (['E', 'N', 'O', 'T', 'C', 'O', 'N', 'N'], 107),
  (['E', 'S', 'H', 'U', 'T', 'D', 'O', 'W', 'N'], 108),
  (['E', 'T', 'O', 'O', 'M', 'A', 'N', 'Y', 'R', 'E', 'F', 'S'], 109),
  (['E', 'T', 'I', 'M', 'E', 'D', 'O', 'U', 'T'], 110),
  (['E', 'C', 'O', 'N', 'N', 'R', 'E', 'F', 'U', 'S', 'E', 'D'], 111),
  (['E', 'H', 'O', 'S', 'T', 'D', 'O', 'W', 'N'], 112),
  (['E', 'H', 'O', 'S', 'T', 'U', 'N', 'R', 'E', 'A', 'C', 'H'], 113),
  (['E', 'A', 'L', 'R', 'E', 'A', 'D', 'Y'], 114),
  (['E', 'I', 'N', 'P', 'R', 'O', 'G', 'R', 'E', 'S', 'S'], 115),
  (['E', 'S', 'T', 'A', 'L', 'E'], 116),
  (['E', 'U', 'C', 'L', 'E', 'A', 'N'], 117),
  (['E', 'N', 'O', 'T', 'N', 'A', 'M'], 118),
  (['E', 'N', 'A', 'V', 'A', 'I', 'L'], 119),
  (['E', 'I', 'S', 'N', 'A', 'M'], 120),
  (['E', 'R', 'E', 'M', 'O', 'T', 'E', 'I', 'O'], 121),
  (['E', 'D', 'Q', 'U', 'O', 'T'], 122),
  (['E', 'N', 'O', 'M', 'E', 'D', 'I', 'U', 'M'], 123),
  (['E', 'M', 'E', 'D', 'I', 'U', 'M', 'T', 'Y', 'P', 'E'], 124),
  (['E', 'C', 'A', 'N', 'C', 'E', 'L', 'E', 'D'], 125),
  (['E', 'N', 'O', 'K', 'E', 'Y'], 126),
  (['E', 'K', 'E', 'Y', 'E', 'X', 'P', 'I', 'R', 'E', 'D'], 127),
  (['E', 'K', 'E', 'Y', 'R', 'E', 'V', 'O', 'K', 'E', 'D'], 128),
  (['E', 'K', 'E', 'Y', 'R', 'E', 'J', 'E', 'C', 'T', 'E', 'D'], 129),
  (['E', 'O', 'W', 'N', 'E', 'R', 'D', 'E', 'A', 'D'], 130),
  (['E', 'N', 'O', 'T', 'R', 'E', 'C', 'O', 'V', 'E', 'R', 'A', 'B', 'L', 'E'], 131),
  (['E', 'R', 'F', 'K', 'I', 'L', 'L'], 132),
  (['E', 'H', 'W', 'P', 'O', 'I', 'S', 'O', 'N'], 133)]

/-- The cases of the `switch`, in order, SystemException.cpp 52-196; `#val` makes the text of the name. -/
def cases : List (List Char) := [
  ['E', 'P', 'E', 'R', 'M'],
  ['E', 'N', 'O', 'E', 'N', 'T'],
  ['E', 'S', 'R', 'C', 'H'],
  ['E', 'I', 'N', 'T', 'R'],
  ['E', 'I', 'O'],
  ['E', 'N', 'X', 'I', 'O'],
  ['E', '2', 'B', 'I', 'G'],
  ['E', 'N', 'O', 'E', 'X', 'E', 'C'],
  ['E', 'B', 'A', 'D', 'F'],
  ['E', 'C', 'H', 'I', 'L', 'D'],
  ['E', 'A', 'G', 'A', 'I', 'N'],
  ['E', 'N', 'O', 'M', 'E', 'M'],
  ['E', 'A', 'C', 'C', 'E', 'S'],
  ['E', 'F', 'A', 'U', 'L', 'T'],
  ['E', 'N', 'O', 'T', 'B', 'L', 'K'],
  ['E', 'B', 'U', 'S', 'Y'],
  ['E', 'E', 'X', 'I', 'S', 'T'],
  ['E', 'X', 'D', 'E', 'V'],
  ['E', 'N', 'O', 'D', 'E', 'V'],
  ['E', 'N', 'O', 'T', 'D', 'I', 'R'],
  ['E', 'I', 'S', 'D', 'I', 'R'],
  ['E', 'I', 'N', 'V', 'A', 'L'],
  ['E', 'N', 'F', 'I', 'L', 'E'],
  ['E', 'M', 'F', 'I', 'L', 'E'],
  ['E', 'N', 'O', 'T', 'T', 'Y'],
  ['E', 'T', 'X', 'T', 'B', 'S', 'Y'],
  ['E', 'F', 'B', 'I', 'G'],
  ['E', 'N', 'O', 'S', 'P', 'C'],
  ['E', 'S', 'P', 'I', 'P', 'E'],
  ['E', 'R', 'O', 'F', 'S'],
  ['E', 'M', 'L', 'I', 'N', 'K'],
  ['E', 'P', 'I', 'P', 'E'],
  ['E', 'D', 'O', 'M'],
  ['E', 'R', 'A', 'N', 'G', 'E'],
  ['E', 'D', 'E', 'A', 'D', 'L', 'K'],
  ['E', 'N', 'A', 'M', 'E', 'T', 'O', 'O', 'L', 'O', 'N', 'G'],
  ['E', 'N', 'O', 'L', 'C', 'K'],
  ['E', 'N', 'O', 'S', 'Y', 'S'],
  ['E', 'N', 'O', 'T', 'E', 'M', 'P', 'T', 'Y'],
  ['E', 'L', 'O', 'O', 'P'],
  ['E', 'N', 'O', 'M', 'S', 'G'],
  ['E', 'I', 'D', 'R', 'M'],
  ['E', 'C', 'H', 'R', 'N', 'G'],
  ['E', 'L', '2', 'N', 'S', 'Y', 'N', 'C'],
  ['E', 'L', '3', 'H', 'L', 'T'],
  ['E', 'L', '3', 'R', 'S', 'T'],
  ['E', 'L', 'N', 'R', 'N', 'G'],
  ['E', 'U', 'N', 'A', 'T', 'C', 'H'],
  ['E', 'N', 'O', 'C', 'S', 'I'],
  ['E', 'L', '2', 'H', 'L', 'T'],
  ['E', 'B', 'A', 'D', 'E'],
  ['E', 'B', 'A', 'D', 'R'],
  ['E', 'X', 'F', 'U', 'L', 'L'],
  ['E', 'N', 'O', 'A', 'N', 'O'],
  ['E', 'B', 'A', 'D', 'R', 'Q', 'C'],
  ['E', 'B', 'A', 'D', 'S', 'L', 'T'],
  ['E', 'B', 'F', 'O', 'N', 'T'],
  ['E', 'N', 'O', 'S', 'T', 'R'],
  ['E', 'N', 'O', 'D', 'A', 'T', 'A'],
  ['E', 'T', 'I', 'M', 'E'],
  ['E', 'N', 'O', 'S', 'R'],
  ['E', 'N', 'O', 'N', 'E', 'T'],
  ['E', 'N', 'O', 'P', 'K', 'G'],
  ['E', 'R', 'E', 'M', 'O', 'T', 'E'],
  ['E', 'N', 'O', 'L', 'I', 'N', 'K'],
  ['E', 'A', 'D', 'V'],
  ['E', 'S', 'R', 'M', 'N', 'T'],
  ['E', 'C', 'O', 'M', 'M'],
  ['E', 'P', 'R', 'O', 'T', 'O'],
  ['E', 'M', 'U', 'L', 'T', 'I', 'H', 'O', 'P'],
  ['E', 'D', 'O', 'T', 'D', 'O', 'T'],
  ['E', 'B', 'A', 'D', 'M', 'S', 'G'],
  ['E', 'O', 'V', 'E', 'R', 'F', 'L', 'O', 'W'],
  ['E', 'N', 'O', 'T', 'U', 'N', 'I', 'Q'],
  ['E', 'B', 'A', 'D', 'F', 'D'],
  ['E', 'R', 'E', 'M', 'C', 'H', 'G'],
  ['E', 'L', 'I', 'B', 'A', 'C', 'C'],
  ['E', 'L', 'I', 'B', 'B', 'A', 'D'],
  ['E', 'L', 'I', 'B', 'S', 'C', 'N'],
  ['E', 'L', 'I', 'B', 'M', 'A', 'X'],
  ['E', 'L', 'I', 'B', 'E', 'X', 'E', 'C'],
  ['E', 'I', 'L', 'S', 'E', 'Q'],
  ['E', 'R', 'E', 'S', 'T', 'A', 'R', 'T'],
  ['E', 'S', 'T', 'R', 'P', 'I', 'P', 'E'],
  ['E', 'U', 'S', 'E', 'R', 'S'],
  ['E', 'N', 'O', 'T', 'S', 'O', 'C', 'K'],
  ['E', 'D', 'E', 'S', 'T', 'A', 'D', 'D', 'R', 'R', 'E', 'Q'],
  ['E', 'M', 'S', 'G', 'S', 'I', 'Z', 'E'],
  ['E', 'P', 'R', 'O', 'T', 'O', 'T', 'Y', 'P', 'E'],
  ['E', 'N', 'O', 'P', 'R', 'O', 'T', 'O', 'O', 'P', 'T'],
  ['E', 'P', 'R', 'O', 'T', 'O', 'N', 'O', 'S', 'U', 'P', 'P', 'O', 'R', 'T'],
  ['E', 'S', 'O', 'C', 'K', 'T', 'N', 'O', 'S', 'U', 'P', 'P', 'O', 'R', 'T'],
  ['E', 'O', 'P', 'N', 'O', 'T', 'S', 'U', 'P', 'P'],
  ['E', 'P', 'F', 'N', 'O', 'S', 'U', 'P', 'P', 'O', 'R', 'T'],
  ['E', 'A', 'F', 'N', 'O', 'S', 'U', 'P', 'P', 'O', 'R', 'T'],
  ['E', 'A', 'D', 'D', 'R', 'I', 'N', 'U', 'S', 'E'],
  ['E', 'A', 'D', 'D', 'R', 'N', 'O', 'T', 'A', 'V', 'A', 'I', 'L'],
  ['E', 'N', 'E', 'T', 'D', 'O', 'W', 'N'],
  ['E', 'N', 'E', 'T', 'U', 'N', 'R', 'E', 'A', 'C', 'H'],
  ['E', 'N', 'E', 'T', 'R', 'E', 'S', 'E', 'T'],
  ['E', 'C', 'O', 'N', 'N', 'A', 'B', 'O', 'R', 'T', 'E', 'D'],
  ['E', 'C', 'O', 'N', 'N', 'R', 'E', 'S', 'E', 'T'],
  ['E', 'N', 'O', 'B', 'U', 'F', 'S'],
  ['E', 'I', 'S', 'C', 'O', 'N', 'N'],
  ['E', 'N', 'O', 'T', 'C', 'O', 'N', 'N'],
  ['E', 'S', 'H', 'U', 'T', 'D', 'O', 'W', 'N'],
  ['E', 'T', 'O', 'O', 'M', 'A', 'N', 'Y', 'R', 'E', 'F', 'S'],
  ['E', 'T', 'I', 'M', 'E', 'D', 'O', 'U', 'T'],
  ['E', 'C', 'O', 'N', 'N', 'R', 'E', 'F', 'U', 'S', 'E', 'D'],
  ['E', 'H', 'O', 'S', 'T', 'D', 'O', 'W', 'N'],
  ['E', 'H', 'O', 'S', 'T', 'U', 'N', 'R', 'E', 'A', 'C', 'H'],
  ['E', 'A', 'L', 'R', 'E', 'A', 'D', 'Y'],
  ['E', 'I', 'N', 'P', 'R', 'O', 'G', 'R', 'E', 'S', 'S'],
  ['E', 'S', 'T', 'A', 'L', 'E'],
  ['E', 'U', 'C', 'L', 'E', 'A', 'N'],
  ['E', 'N', 'O', 'T', 'N', 'A', 'M'],
  ['E', 'N', 'A', 'V', 'A', 'I', 'L'],
  ['E', 'I', 'S', 'N', 'A', 'M'],
  ['E', 'R', 'E', 'M', 'O', 'T', 'E', 'I', 'O'],
  ['E', 'D', 'Q', 'U', 'O', 'T'],
  ['E', 'N', 'O', 'M', 'E', 'D', 'I', 'U', 'M'],
  ['E', 'M', 'E', 'D', 'I', 'U', 'M', 'T', 'Y', 'P', 'E'],
  ['E', 'C', 'A', 'N', 'C', 'E', 'L', 'E', 'D'],
  ['E', 'N', 'O', 'K', 'E', 'Y'],
  ['E', 'K', 'E', 'Y', 'E', 'X', 'P', 'I', 'R', 'E', 'D'],
  ['E', 'K', 'E', 'Y', 'R', 'E', 'V', 'O', 'K', 'E', 'D'],
  ['E', 'K', 'E', 'Y', 'R', 'E', 'J', 'E', 'C', 'T', 'E', 'D'],
  ['E', 'O', 'W', 'N', 'E', 'R', 'D', 'E', 'A', 'D'],
  ['E', 'N', 'O', 'T', 'R', 'E', 'C', 'O', 'V', 'E', 'R', 'A', 'B', 'L', 'E'],
  ['E', 'R', 'F', 'K', 'I', 'L', 'L']]

/-- `ErrnoToStr`, SystemException.cpp 47-201. -/
def errnoToStr (e : Int) : List Char :=
  match cases.find? (fun n => decide (header.lookup n = some e)) with
  | some n => n
  | none => (toText s32 e).getD []

/-- `GetErrorMessage`, SystemException.cpp 33-39; `strerror` gives no text for some numbers. -/
def getErrorMessage (strerror : Int → Option (List Char)) (e : Int) : List Char :=
  errnoToStr e ++ [' ', '('] ++ (strerror e).getD ['U', 'n', 'k', 'n', 'o', 'w', 'n', ' ', 'e', 'r', 'r', 'o', 'r'] ++ [')']

/-- What an exception tells: `what()` and `GetErrorCode()`, SystemException.h 18-27. -/
structure Exn where
  text : List Char
  code : Int
deriving DecidableEq, Repr

/-- `": errno = "`, SystemException.cpp 19-29. -/
def mid : List Char := [':', ' ', 'e', 'r', 'r', 'n', 'o', ' ', '=', ' ']

/-- The constructor with a message alone, SystemException.cpp 18-20: `errno` is read for the text, and again after the text is made; `build` is what making it does to `errno`. -/
def ofErrno (strerror : Int → Option (List Char)) (build : Int → Int) (message : List Char) (errno : Int) : Exn :=
  ⟨message ++ mid ++ getErrorMessage strerror errno, build errno⟩

/-- The constructor with a message and a number, SystemException.cpp 23-25. -/
def ofCode (strerror : Int → Option (List Char)) (message : List Char) (err : Int) : Exn :=
  ⟨message ++ mid ++ getErrorMessage strerror err, err⟩

/-- The constructor with a message, a path and a number, SystemException.cpp 28-30. -/
def ofPath (strerror : Int → Option (List Char)) (message path : List Char) (err : Int) : Exn :=
  ⟨message ++ [' ', '\''] ++ path ++ ['\''] ++ mid ++ getErrorMessage strerror err, err⟩

/-- What `STINGRAYKIT_THROW_SYSTEM_EXCEPTION` throws, SystemException.h 41-47. -/
inductive Thrown where
  | fileNotFound (path : List Char)
  | accessDenied (message : List Char)
  | inputOutput (message : List Char)
  | deviceBusy (message : List Char)
  | noSpaceLeft (message : List Char)
  | resourceUnavailable (message : List Char)
  | system (e : Exn)
deriving DecidableEq, Repr

/-- `STINGRAYKIT_THROW_SYSTEM_EXCEPTION`, SystemException.h 36-49: `ENOENT`, `EACCES`, `EIO`, `EBUSY`, `ENOSPC`, `EAGAIN`. -/
def throwSystem (strerror : Int → Option (List Char)) (message path : List Char) (error : Int) : Thrown :=
  if error = 2 then .fileNotFound path
  else if error = 13 then .accessDenied message
  else if error = 5 then .inputOutput message
  else if error = 16 then .deviceBusy message
  else if error = 28 then .noSpaceLeft message
  else if error = 11 then .resourceUnavailable message
  else .system (ofPath strerror message path error)

end Verif.Util.SysError
