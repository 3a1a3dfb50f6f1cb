/-
Model of `Random` (Random.h, Random.cpp): the numbers are natural numbers below 2^32, the state of the object is its seed.  The constructor without a seed, which reads the clock, is not
modelled: it is one of the seeds.
-/
namespace Verif.Num.Random

/-- Number of values of u32, the type of the seed and of results.  For Random.h 21. -/
def size : Nat := 4294967296

/-- `Next()`, Random.cpp 31-35: the new seed, which is the result. -/
def next (seed : Nat) : Nat := (seed * 1664525 % size + 1013904223) % size

/-- `Next(maxValue)`, Random.cpp 26-29: the product is a u64, the result is reduced to u32.  The new seed and the result. -/
def nextMax (seed maxValue : Nat) : Nat × Nat := (next seed, ((next seed * maxValue % (size * size)) >>> 32) % size)

/-- `Next(minValue, maxValue)`, Random.h 29-30: differences and sums are u32. -/
def nextRange (seed minValue maxValue : Nat) : Nat × Nat :=
  ((nextMax seed ((maxValue + size - minValue) % size)).1, (minValue + (nextMax seed ((maxValue + size - minValue) % size)).2) % size)

/-- The results of `n` calls of `Next()`.  For Random.cpp 31-35. -/
def nexts (seed : Nat) : Nat → List Nat
  | 0 => []
  | n + 1 => next seed :: nexts (next seed) n

/-- The results of `n` calls of `Next(maxValue)`.  For Random.cpp 26-29. -/
def nextMaxes (seed maxValue : Nat) : Nat → List Nat
  | 0 => []
  | n + 1 => (nextMax seed maxValue).2 :: nextMaxes (nextMax seed maxValue).1 maxValue n

end Verif.Num.Random
