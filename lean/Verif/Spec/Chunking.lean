/-
Independent specification of casync's content-defined chunking: buzhash over the last 48
bytes, first-cut rule, and the chunk list of a byte string.
-/
namespace Csn.Spec

/-- The casync buzhash table, copied separately from chunker.c:11-76. -/
def table : List Nat := [
  1166796626, 3238480076, 4223458232, 1844271976, 2970256053, 550983240,
  3754255967, 2822932481, 2126467473, 2215720391, 1707889587, 671766908,
  385221205, 3347889214, 692327925, 3107509396, 3968189670, 3084074716,
  3846812996, 4260210090, 2284581511, 823554940, 89561430, 3905691496,
  134655070, 580994115, 355040784, 1355845863, 1269174127, 4024037799,
  1549568092, 2185768851, 2617080932, 188641910, 4066938487, 2410515132,
  2958071144, 4054688415, 2772368894, 3408600320, 4071221638, 1684226859,
  2500411473, 1512192722, 2615689243, 1642428875, 441805332, 1480654274,
  2455887350, 3454010043, 1380133808, 3205969726, 2071732783, 693497110,
  2668677721, 3896558793, 3433814022, 341065524, 341983610, 222961564,
  142530853, 3623416396, 1933100069, 3481716981, 2979096013, 2559689619,
  844334252, 50873757, 2249465214, 3374453098, 3808405174, 1408576237,
  752378263, 4122604696, 3207699599, 3762364334, 2541662604, 3631679862,
  2553497194, 3329548159, 2351529285, 2359594278, 3298744546, 1933899892,
  1433369031, 1797647085, 2688428866, 4136593060, 2391476642, 4074825258,
  221943814, 2536105107, 2356326652, 369857782, 1158565181, 2050100869,
  3203985633, 567752275, 1312659322, 511392041, 482789145, 3192360275,
  2373265417, 3872965318, 660539538, 3366765171, 1287787904, 3972310551,
  4126654064, 3885311114, 928657385, 1112895670, 2291719416, 3693975492,
  17174859, 911065647, 504147231, 3194191932, 1600780994, 1297807983,
  465625013, 4213650825, 245661563, 1008479056, 565356850, 1796350973,
  803669672, 4189940962, 2724783694, 3918001286, 1051522403, 480379276,
  1709277736, 570897930, 1473189653, 885226795, 529480926, 2478200783,
  832575997, 3869161257, 2345302939, 1285381101, 662617775, 3772315822,
  3511714332, 825759857, 2948854192, 2457711400, 3915317164, 811222973,
  1114350427, 305377087, 1751800707, 1356886757, 3654531882, 2347746421,
  1216286182, 3364749193, 3177598302, 2535152920, 1672562759, 3620979150,
  2136489203, 1925958409, 3234899996, 2141405851, 3910502939, 576627098,
  3637157539, 3345199746, 3138151233, 34308755, 3570215325, 1490003960,
  2444553811, 937742656, 2515301964, 821521158, 1592167716, 1738311265,
  2753132994, 4072018564, 1336677493, 182143481, 426932771, 363324276,
  3292141781, 1068608115, 875546133, 2454456211, 3202537456, 2317852137,
  1252185868, 3796751231, 3196464139, 394011330, 1401480686, 3448403216,
  4177638653, 3686874556, 1812704859, 1693444295, 1219502201, 2150832713,
  3393030886, 4082393488, 4275507339, 3298530331, 851113129, 3951245898,
  2292445605, 982633994, 1019379105, 1897064068, 1244698289, 932468556,
  2747840243, 488716609, 1846160896, 590641649, 256694319, 1620307410,
  1568481438, 1179640601, 3571231902, 230180299, 4217260995, 3760549089,
  167464657, 152354334, 2780672707, 3337312187, 808584016, 1060732561,
  2792853948, 2260471340, 4020283362, 3925833027, 3878904108, 3515189627,
  849236872, 2447188843, 785059219, 4107807293, 901103679, 3840280304,
  95557699, 934566244, 1593778932, 1613231308, 1998031676, 2924507441,
  2079836860, 4190211430, 1497030245, 3646807825]

def rot (x : BitVec 32) (n : Nat) : BitVec 32 := x.rotateLeft n

/-- Cyclic polynomial hash in Horner form: rotate, then add the table value. -/
def buzhash (w : List UInt8) : BitVec 32 :=
  w.foldl (fun h b => rot h 1 ^^^ BitVec.ofNat 32 (table.getD b.toNat 0)) 0

/-- Hash of the 48 bytes that end at position `n`. -/
def hashAt (data : List UInt8) (n : Nat) : Nat := (buzhash ((data.take n).drop (n - 48))).toNat

/-- Position `n` of `data` (which starts at a chunk boundary) satisfies the cut rule. -/
def Cut (min max d : Nat) (data : List UInt8) (n : Nat) : Prop :=
  48 ≤ n ∧ n ≤ data.length ∧ (max ≤ n ∨ (min ≤ n ∧ hashAt data n % d = d - 1))

/-- `n` is the first position satisfying the cut rule. -/
def FirstCut (min max d : Nat) (data : List UInt8) (n : Nat) : Prop :=
  Cut min max d data n ∧ ∀ m, m < n → ¬ Cut min max d data m

/-- `Chunking min max d data cs`: cutting `data` by the rule gives the pieces `cs`. -/
inductive Chunking (min max d : Nat) : List UInt8 → List (List UInt8) → Prop
  | empty : Chunking min max d [] []
  | last {data} : data ≠ [] → (∀ n, ¬ Cut min max d data n) → Chunking min max d data [data]
  | cut {data n cs} : FirstCut min max d data n → Chunking min max d (data.drop n) cs →
      Chunking min max d data (data.take n :: cs)

/-- Offsets of consecutive pieces starting at `o`. -/
def place (o : Nat) : List (List UInt8) → List (Nat × List UInt8)
  | [] => []
  | c :: cs => (o, c) :: place (o + c.length) cs

end Csn.Spec
