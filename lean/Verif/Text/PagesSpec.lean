/-!
# The single-byte encodings of text

From the mapping tables of the Unicode Consortium (taken from the codecs of Python): each encoding as runs of a first byte, a number of
bytes and the first of as many consecutive characters.  Below 0x80 all are ASCII.
-/

namespace Verif.Text.Spec

/-- CP1251 -/
def runs_cp1251 : List (Nat × Nat × Nat) := [
  (0x80, 2, 0x402), (0x82, 1, 0x201a), (0x83, 1, 0x453), (0x84, 1, 0x201e), (0x85, 1, 0x2026), (0x86, 2, 0x2020), (0x88, 1, 0x20ac), (0x89, 1,
  0x2030), (0x8a, 1, 0x409), (0x8b, 1, 0x2039), (0x8c, 1, 0x40a), (0x8d, 1, 0x40c), (0x8e, 1, 0x40b), (0x8f, 1, 0x40f), (0x90, 1, 0x452), (0x91, 2,
  0x2018), (0x93, 2, 0x201c), (0x95, 1, 0x2022), (0x96, 2, 0x2013), (0x99, 1, 0x2122), (0x9a, 1, 0x459), (0x9b, 1, 0x203a), (0x9c, 1, 0x45a), (0x9d,
  1, 0x45c), (0x9e, 1, 0x45b), (0x9f, 1, 0x45f), (0xa0, 1, 0xa0), (0xa1, 1, 0x40e), (0xa2, 1, 0x45e), (0xa3, 1, 0x408), (0xa4, 1, 0xa4), (0xa5, 1,
  0x490), (0xa6, 2, 0xa6), (0xa8, 1, 0x401), (0xa9, 1, 0xa9), (0xaa, 1, 0x404), (0xab, 4, 0xab), (0xaf, 1, 0x407), (0xb0, 2, 0xb0), (0xb2, 1, 0x406),
  (0xb3, 1, 0x456), (0xb4, 1, 0x491), (0xb5, 3, 0xb5), (0xb8, 1, 0x451), (0xb9, 1, 0x2116), (0xba, 1, 0x454), (0xbb, 1, 0xbb), (0xbc, 1, 0x458),
  (0xbd, 1, 0x405), (0xbe, 1, 0x455), (0xbf, 1, 0x457), (0xc0, 64, 0x410)]

/-- ISO 8859-2 -/
def runs_iso2 : List (Nat × Nat × Nat) := [
  (0x80, 33, 0x80), (0xa1, 1, 0x104), (0xa2, 1, 0x2d8), (0xa3, 1, 0x141), (0xa4, 1, 0xa4), (0xa5, 1, 0x13d), (0xa6, 1, 0x15a), (0xa7, 2, 0xa7), (0xa9,
  1, 0x160), (0xaa, 1, 0x15e), (0xab, 1, 0x164), (0xac, 1, 0x179), (0xad, 1, 0xad), (0xae, 1, 0x17d), (0xaf, 1, 0x17b), (0xb0, 1, 0xb0), (0xb1, 1,
  0x105), (0xb2, 1, 0x2db), (0xb3, 1, 0x142), (0xb4, 1, 0xb4), (0xb5, 1, 0x13e), (0xb6, 1, 0x15b), (0xb7, 1, 0x2c7), (0xb8, 1, 0xb8), (0xb9, 1,
  0x161), (0xba, 1, 0x15f), (0xbb, 1, 0x165), (0xbc, 1, 0x17a), (0xbd, 1, 0x2dd), (0xbe, 1, 0x17e), (0xbf, 1, 0x17c), (0xc0, 1, 0x154), (0xc1, 2,
  0xc1), (0xc3, 1, 0x102), (0xc4, 1, 0xc4), (0xc5, 1, 0x139), (0xc6, 1, 0x106), (0xc7, 1, 0xc7), (0xc8, 1, 0x10c), (0xc9, 1, 0xc9), (0xca, 1, 0x118),
  (0xcb, 1, 0xcb), (0xcc, 1, 0x11a), (0xcd, 2, 0xcd), (0xcf, 1, 0x10e), (0xd0, 1, 0x110), (0xd1, 1, 0x143), (0xd2, 1, 0x147), (0xd3, 2, 0xd3), (0xd5,
  1, 0x150), (0xd6, 2, 0xd6), (0xd8, 1, 0x158), (0xd9, 1, 0x16e), (0xda, 1, 0xda), (0xdb, 1, 0x170), (0xdc, 2, 0xdc), (0xde, 1, 0x162), (0xdf, 1,
  0xdf), (0xe0, 1, 0x155), (0xe1, 2, 0xe1), (0xe3, 1, 0x103), (0xe4, 1, 0xe4), (0xe5, 1, 0x13a), (0xe6, 1, 0x107), (0xe7, 1, 0xe7), (0xe8, 1, 0x10d),
  (0xe9, 1, 0xe9), (0xea, 1, 0x119), (0xeb, 1, 0xeb), (0xec, 1, 0x11b), (0xed, 2, 0xed), (0xef, 1, 0x10f), (0xf0, 1, 0x111), (0xf1, 1, 0x144), (0xf2,
  1, 0x148), (0xf3, 2, 0xf3), (0xf5, 1, 0x151), (0xf6, 2, 0xf6), (0xf8, 1, 0x159), (0xf9, 1, 0x16f), (0xfa, 1, 0xfa), (0xfb, 1, 0x171), (0xfc, 2,
  0xfc), (0xfe, 1, 0x163), (0xff, 1, 0x2d9)]

/-- ISO 8859-3 -/
def runs_iso3 : List (Nat × Nat × Nat) := [
  (0x80, 33, 0x80), (0xa1, 1, 0x126), (0xa2, 1, 0x2d8), (0xa3, 2, 0xa3), (0xa6, 1, 0x124), (0xa7, 2, 0xa7), (0xa9, 1, 0x130), (0xaa, 1, 0x15e), (0xab,
  1, 0x11e), (0xac, 1, 0x134), (0xad, 1, 0xad), (0xaf, 1, 0x17b), (0xb0, 1, 0xb0), (0xb1, 1, 0x127), (0xb2, 4, 0xb2), (0xb6, 1, 0x125), (0xb7, 2,
  0xb7), (0xb9, 1, 0x131), (0xba, 1, 0x15f), (0xbb, 1, 0x11f), (0xbc, 1, 0x135), (0xbd, 1, 0xbd), (0xbf, 1, 0x17c), (0xc0, 3, 0xc0), (0xc4, 1, 0xc4),
  (0xc5, 1, 0x10a), (0xc6, 1, 0x108), (0xc7, 9, 0xc7), (0xd1, 4, 0xd1), (0xd5, 1, 0x120), (0xd6, 2, 0xd6), (0xd8, 1, 0x11c), (0xd9, 4, 0xd9), (0xdd,
  1, 0x16c), (0xde, 1, 0x15c), (0xdf, 4, 0xdf), (0xe4, 1, 0xe4), (0xe5, 1, 0x10b), (0xe6, 1, 0x109), (0xe7, 9, 0xe7), (0xf1, 4, 0xf1), (0xf5, 1,
  0x121), (0xf6, 2, 0xf6), (0xf8, 1, 0x11d), (0xf9, 4, 0xf9), (0xfd, 1, 0x16d), (0xfe, 1, 0x15d), (0xff, 1, 0x2d9)]

/-- ISO 8859-4 -/
def runs_iso4 : List (Nat × Nat × Nat) := [
  (0x80, 33, 0x80), (0xa1, 1, 0x104), (0xa2, 1, 0x138), (0xa3, 1, 0x156), (0xa4, 1, 0xa4), (0xa5, 1, 0x128), (0xa6, 1, 0x13b), (0xa7, 2, 0xa7), (0xa9,
  1, 0x160), (0xaa, 1, 0x112), (0xab, 1, 0x122), (0xac, 1, 0x166), (0xad, 1, 0xad), (0xae, 1, 0x17d), (0xaf, 2, 0xaf), (0xb1, 1, 0x105), (0xb2, 1,
  0x2db), (0xb3, 1, 0x157), (0xb4, 1, 0xb4), (0xb5, 1, 0x129), (0xb6, 1, 0x13c), (0xb7, 1, 0x2c7), (0xb8, 1, 0xb8), (0xb9, 1, 0x161), (0xba, 1,
  0x113), (0xbb, 1, 0x123), (0xbc, 1, 0x167), (0xbd, 1, 0x14a), (0xbe, 1, 0x17e), (0xbf, 1, 0x14b), (0xc0, 1, 0x100), (0xc1, 6, 0xc1), (0xc7, 1,
  0x12e), (0xc8, 1, 0x10c), (0xc9, 1, 0xc9), (0xca, 1, 0x118), (0xcb, 1, 0xcb), (0xcc, 1, 0x116), (0xcd, 2, 0xcd), (0xcf, 1, 0x12a), (0xd0, 1, 0x110),
  (0xd1, 1, 0x145), (0xd2, 1, 0x14c), (0xd3, 1, 0x136), (0xd4, 5, 0xd4), (0xd9, 1, 0x172), (0xda, 3, 0xda), (0xdd, 1, 0x168), (0xde, 1, 0x16a), (0xdf,
  1, 0xdf), (0xe0, 1, 0x101), (0xe1, 6, 0xe1), (0xe7, 1, 0x12f), (0xe8, 1, 0x10d), (0xe9, 1, 0xe9), (0xea, 1, 0x119), (0xeb, 1, 0xeb), (0xec, 1,
  0x117), (0xed, 2, 0xed), (0xef, 1, 0x12b), (0xf0, 1, 0x111), (0xf1, 1, 0x146), (0xf2, 1, 0x14d), (0xf3, 1, 0x137), (0xf4, 5, 0xf4), (0xf9, 1,
  0x173), (0xfa, 3, 0xfa), (0xfd, 1, 0x169), (0xfe, 1, 0x16b), (0xff, 1, 0x2d9)]

/-- ISO 8859-5 -/
def runs_iso5 : List (Nat × Nat × Nat) := [
  (0x80, 33, 0x80), (0xa1, 12, 0x401), (0xad, 1, 0xad), (0xae, 66, 0x40e), (0xf0, 1, 0x2116), (0xf1, 12, 0x451), (0xfd, 1, 0xa7), (0xfe, 2, 0x45e)]

/-- ISO 8859-6 -/
def runs_iso6 : List (Nat × Nat × Nat) := [
  (0x80, 33, 0x80), (0xa4, 1, 0xa4), (0xac, 1, 0x60c), (0xad, 1, 0xad), (0xbb, 1, 0x61b), (0xbf, 1, 0x61f), (0xc1, 26, 0x621), (0xe0, 19, 0x640)]

/-- ISO 8859-7 -/
def runs_iso7 : List (Nat × Nat × Nat) := [
  (0x80, 33, 0x80), (0xa1, 2, 0x2018), (0xa3, 1, 0xa3), (0xa4, 1, 0x20ac), (0xa5, 1, 0x20af), (0xa6, 4, 0xa6), (0xaa, 1, 0x37a), (0xab, 3, 0xab),
  (0xaf, 1, 0x2015), (0xb0, 4, 0xb0), (0xb4, 3, 0x384), (0xb7, 1, 0xb7), (0xb8, 3, 0x388), (0xbb, 1, 0xbb), (0xbc, 1, 0x38c), (0xbd, 1, 0xbd), (0xbe,
  20, 0x38e), (0xd3, 44, 0x3a3)]

/-- ISO 8859-8 -/
def runs_iso8 : List (Nat × Nat × Nat) := [
  (0x80, 33, 0x80), (0xa2, 8, 0xa2), (0xaa, 1, 0xd7), (0xab, 15, 0xab), (0xba, 1, 0xf7), (0xbb, 4, 0xbb), (0xdf, 1, 0x2017), (0xe0, 27, 0x5d0), (0xfd,
  2, 0x200e)]

/-- ISO 8859-9 -/
def runs_iso9 : List (Nat × Nat × Nat) := [
  (0x80, 80, 0x80), (0xd0, 1, 0x11e), (0xd1, 12, 0xd1), (0xdd, 1, 0x130), (0xde, 1, 0x15e), (0xdf, 17, 0xdf), (0xf0, 1, 0x11f), (0xf1, 12, 0xf1),
  (0xfd, 1, 0x131), (0xfe, 1, 0x15f), (0xff, 1, 0xff)]

/-- ISO 8859-10 -/
def runs_iso10 : List (Nat × Nat × Nat) := [
  (0x80, 33, 0x80), (0xa1, 1, 0x104), (0xa2, 1, 0x112), (0xa3, 1, 0x122), (0xa4, 1, 0x12a), (0xa5, 1, 0x128), (0xa6, 1, 0x136), (0xa7, 1, 0xa7),
  (0xa8, 1, 0x13b), (0xa9, 1, 0x110), (0xaa, 1, 0x160), (0xab, 1, 0x166), (0xac, 1, 0x17d), (0xad, 1, 0xad), (0xae, 1, 0x16a), (0xaf, 1, 0x14a),
  (0xb0, 1, 0xb0), (0xb1, 1, 0x105), (0xb2, 1, 0x113), (0xb3, 1, 0x123), (0xb4, 1, 0x12b), (0xb5, 1, 0x129), (0xb6, 1, 0x137), (0xb7, 1, 0xb7), (0xb8,
  1, 0x13c), (0xb9, 1, 0x111), (0xba, 1, 0x161), (0xbb, 1, 0x167), (0xbc, 1, 0x17e), (0xbd, 1, 0x2015), (0xbe, 1, 0x16b), (0xbf, 1, 0x14b), (0xc0, 1,
  0x100), (0xc1, 6, 0xc1), (0xc7, 1, 0x12e), (0xc8, 1, 0x10c), (0xc9, 1, 0xc9), (0xca, 1, 0x118), (0xcb, 1, 0xcb), (0xcc, 1, 0x116), (0xcd, 4, 0xcd),
  (0xd1, 1, 0x145), (0xd2, 1, 0x14c), (0xd3, 4, 0xd3), (0xd7, 1, 0x168), (0xd8, 1, 0xd8), (0xd9, 1, 0x172), (0xda, 6, 0xda), (0xe0, 1, 0x101), (0xe1,
  6, 0xe1), (0xe7, 1, 0x12f), (0xe8, 1, 0x10d), (0xe9, 1, 0xe9), (0xea, 1, 0x119), (0xeb, 1, 0xeb), (0xec, 1, 0x117), (0xed, 4, 0xed), (0xf1, 1,
  0x146), (0xf2, 1, 0x14d), (0xf3, 4, 0xf3), (0xf7, 1, 0x169), (0xf8, 1, 0xf8), (0xf9, 1, 0x173), (0xfa, 5, 0xfa), (0xff, 1, 0x138)]

/-- ISO 8859-11 -/
def runs_iso11 : List (Nat × Nat × Nat) := [
  (0x80, 33, 0x80), (0xa1, 58, 0xe01), (0xdf, 29, 0xe3f)]

/-- ISO 8859-13 -/
def runs_iso13 : List (Nat × Nat × Nat) := [
  (0x80, 33, 0x80), (0xa1, 1, 0x201d), (0xa2, 3, 0xa2), (0xa5, 1, 0x201e), (0xa6, 2, 0xa6), (0xa8, 1, 0xd8), (0xa9, 1, 0xa9), (0xaa, 1, 0x156), (0xab,
  4, 0xab), (0xaf, 1, 0xc6), (0xb0, 4, 0xb0), (0xb4, 1, 0x201c), (0xb5, 3, 0xb5), (0xb8, 1, 0xf8), (0xb9, 1, 0xb9), (0xba, 1, 0x157), (0xbb, 4, 0xbb),
  (0xbf, 1, 0xe6), (0xc0, 1, 0x104), (0xc1, 1, 0x12e), (0xc2, 1, 0x100), (0xc3, 1, 0x106), (0xc4, 2, 0xc4), (0xc6, 1, 0x118), (0xc7, 1, 0x112), (0xc8,
  1, 0x10c), (0xc9, 1, 0xc9), (0xca, 1, 0x179), (0xcb, 1, 0x116), (0xcc, 1, 0x122), (0xcd, 1, 0x136), (0xce, 1, 0x12a), (0xcf, 1, 0x13b), (0xd0, 1,
  0x160), (0xd1, 1, 0x143), (0xd2, 1, 0x145), (0xd3, 1, 0xd3), (0xd4, 1, 0x14c), (0xd5, 3, 0xd5), (0xd8, 1, 0x172), (0xd9, 1, 0x141), (0xda, 1,
  0x15a), (0xdb, 1, 0x16a), (0xdc, 1, 0xdc), (0xdd, 1, 0x17b), (0xde, 1, 0x17d), (0xdf, 1, 0xdf), (0xe0, 1, 0x105), (0xe1, 1, 0x12f), (0xe2, 1,
  0x101), (0xe3, 1, 0x107), (0xe4, 2, 0xe4), (0xe6, 1, 0x119), (0xe7, 1, 0x113), (0xe8, 1, 0x10d), (0xe9, 1, 0xe9), (0xea, 1, 0x17a), (0xeb, 1,
  0x117), (0xec, 1, 0x123), (0xed, 1, 0x137), (0xee, 1, 0x12b), (0xef, 1, 0x13c), (0xf0, 1, 0x161), (0xf1, 1, 0x144), (0xf2, 1, 0x146), (0xf3, 1,
  0xf3), (0xf4, 1, 0x14d), (0xf5, 3, 0xf5), (0xf8, 1, 0x173), (0xf9, 1, 0x142), (0xfa, 1, 0x15b), (0xfb, 1, 0x16b), (0xfc, 1, 0xfc), (0xfd, 1, 0x17c),
  (0xfe, 1, 0x17e), (0xff, 1, 0x2019)]

/-- ISO 8859-14 -/
def runs_iso14 : List (Nat × Nat × Nat) := [
  (0x80, 33, 0x80), (0xa1, 2, 0x1e02), (0xa3, 1, 0xa3), (0xa4, 2, 0x10a), (0xa6, 1, 0x1e0a), (0xa7, 1, 0xa7), (0xa8, 1, 0x1e80), (0xa9, 1, 0xa9),
  (0xaa, 1, 0x1e82), (0xab, 1, 0x1e0b), (0xac, 1, 0x1ef2), (0xad, 2, 0xad), (0xaf, 1, 0x178), (0xb0, 2, 0x1e1e), (0xb2, 2, 0x120), (0xb4, 2, 0x1e40),
  (0xb6, 1, 0xb6), (0xb7, 1, 0x1e56), (0xb8, 1, 0x1e81), (0xb9, 1, 0x1e57), (0xba, 1, 0x1e83), (0xbb, 1, 0x1e60), (0xbc, 1, 0x1ef3), (0xbd, 2,
  0x1e84), (0xbf, 1, 0x1e61), (0xc0, 16, 0xc0), (0xd0, 1, 0x174), (0xd1, 6, 0xd1), (0xd7, 1, 0x1e6a), (0xd8, 6, 0xd8), (0xde, 1, 0x176), (0xdf, 17,
  0xdf), (0xf0, 1, 0x175), (0xf1, 6, 0xf1), (0xf7, 1, 0x1e6b), (0xf8, 6, 0xf8), (0xfe, 1, 0x177), (0xff, 1, 0xff)]

/-- ISO 8859-15 -/
def runs_iso15 : List (Nat × Nat × Nat) := [
  (0x80, 36, 0x80), (0xa4, 1, 0x20ac), (0xa5, 1, 0xa5), (0xa6, 1, 0x160), (0xa7, 1, 0xa7), (0xa8, 1, 0x161), (0xa9, 11, 0xa9), (0xb4, 1, 0x17d),
  (0xb5, 3, 0xb5), (0xb8, 1, 0x17e), (0xb9, 3, 0xb9), (0xbc, 2, 0x152), (0xbe, 1, 0x178), (0xbf, 65, 0xbf)]

/-- ISO 8859-16 -/
def runs_iso16 : List (Nat × Nat × Nat) := [
  (0x80, 33, 0x80), (0xa1, 2, 0x104), (0xa3, 1, 0x141), (0xa4, 1, 0x20ac), (0xa5, 1, 0x201e), (0xa6, 1, 0x160), (0xa7, 1, 0xa7), (0xa8, 1, 0x161),
  (0xa9, 1, 0xa9), (0xaa, 1, 0x218), (0xab, 1, 0xab), (0xac, 1, 0x179), (0xad, 1, 0xad), (0xae, 2, 0x17a), (0xb0, 2, 0xb0), (0xb2, 1, 0x10c), (0xb3,
  1, 0x142), (0xb4, 1, 0x17d), (0xb5, 1, 0x201d), (0xb6, 2, 0xb6), (0xb8, 1, 0x17e), (0xb9, 1, 0x10d), (0xba, 1, 0x219), (0xbb, 1, 0xbb), (0xbc, 2,
  0x152), (0xbe, 1, 0x178), (0xbf, 1, 0x17c), (0xc0, 3, 0xc0), (0xc3, 1, 0x102), (0xc4, 1, 0xc4), (0xc5, 1, 0x106), (0xc6, 10, 0xc6), (0xd0, 1,
  0x110), (0xd1, 1, 0x143), (0xd2, 3, 0xd2), (0xd5, 1, 0x150), (0xd6, 1, 0xd6), (0xd7, 1, 0x15a), (0xd8, 1, 0x170), (0xd9, 4, 0xd9), (0xdd, 1, 0x118),
  (0xde, 1, 0x21a), (0xdf, 4, 0xdf), (0xe3, 1, 0x103), (0xe4, 1, 0xe4), (0xe5, 1, 0x107), (0xe6, 10, 0xe6), (0xf0, 1, 0x111), (0xf1, 1, 0x144), (0xf2,
  3, 0xf2), (0xf5, 1, 0x151), (0xf6, 1, 0xf6), (0xf7, 1, 0x15b), (0xf8, 1, 0x171), (0xf9, 4, 0xf9), (0xfd, 1, 0x119), (0xfe, 1, 0x21b), (0xff, 1,
  0xff)]

/-- The character of a byte by a list of runs, if there is one -/
def decodeRuns (runs : List (Nat × Nat × Nat)) (b : Nat) : Option Nat :=
  if b < 0x80 then some b
  else (runs.find? fun r => r.1 ≤ b && b < r.1 + r.2.1).map fun r => r.2.2 + (b - r.1)

end Verif.Text.Spec
