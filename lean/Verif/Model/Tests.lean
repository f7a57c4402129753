import Verif.Model.Chan

/-!
# The unit tests of `/repo/src/chan.rs`, run on the model

Generated by `tools/tests.py`.  These are no claims about the code; they check that the model gives the results the
authors of the crate expect.  `assert_eq!(a, b)` is `a == b`.
-/

namespace Fon.Tests

/-! Operators on results, so that a panic in an operand is a panic of the whole. -/

def ch8 (z : ℤ) : R Ch8 := .ok (BitVec.ofInt 8 z)
def ch16 (z : ℤ) : R Ch16 := .ok (BitVec.ofInt 16 z)
def ch32 (q : ℚ) : R Ch32 := .ok (ChF.new (Fl.lit q))
def ch64 (q : ℚ) : R Ch64 := .ok (ChF.new (Fl.lit q))
def f64 (q : ℚ) : R F64 := .ok (Fl.lit q)
def add (c : ChTy) (a b : R c.T) : R c.T := do return c.add (← a) (← b)
def sub (c : ChTy) (a b : R c.T) : R c.T := do return c.sub (← a) (← b)
def mul (c : ChTy) (a b : R c.T) : R c.T := do return c.mul (← a) (← b)
def div (c : ChTy) (a b : R c.T) : R c.T := do c.div (← a) (← b)
def neg (c : ChTy) (a : R c.T) : R c.T := do return c.neg (← a)
def conv (d s : ChTy) (a : R s.T) : R d.T := do return ChTy.conv d s (← a)
def toF64 (c : ChTy) (a : R c.T) : R F64 := do return c.toF64 (← a)
def ofF64 (c : ChTy) (a : R F64) : R c.T := do return c.ofF64 (← a)
def eq (c : ChTy) (a b : R c.T) : Bool := (do return c.beq (← a) (← b)) == (.ok true : R Bool)
def eqF (a b : R F64) : Bool := (do return Fl.eq (← a) (← b)) == (.ok true : R Bool)

/-- `channel_neg` (chan.rs:703). -/
example : ([
    eq .ch8 (ch8 (-128)) (neg .ch8 (ch8 127)),  -- 704
    eq .ch16 (ch16 (-32768)) (neg .ch16 (ch16 32767)),  -- 705
    eq .ch32 (ch32 (-1.0)) (neg .ch32 (ch32 1.0)),  -- 706
    eq .ch64 (ch64 (-1.0)) (neg .ch64 (ch64 1.0)),  -- 707
    eq .ch8 (ch8 127) (neg .ch8 (ch8 (-128))),  -- 709
    eq .ch16 (ch16 32767) (neg .ch16 (ch16 (-32768))),  -- 710
    eq .ch32 (ch32 1.0) (neg .ch32 (ch32 (-1.0))),  -- 711
    eq .ch64 (ch64 1.0) (neg .ch64 (ch64 (-1.0))),  -- 712
    eq .ch8 (ch8 (-1)) (neg .ch8 (ch8 0)),  -- 714
    eq .ch8 (ch8 0) (neg .ch8 (ch8 (-1))),  -- 715
    eq .ch16 (ch16 (-1)) (neg .ch16 (ch16 0)),  -- 716
    eq .ch16 (ch16 0) (neg .ch16 (ch16 (-1))),  -- 717
    eq .ch32 (ch32 0.0) (neg .ch32 (ch32 0.0)),  -- 718
    eq .ch64 (ch64 0.0) (neg .ch64 (ch64 0.0))  -- 719
    ] : List Bool).all id = true := by decide +kernel

/-- `ch8_roundtrip` (chan.rs:723). -/
example : ([
    eqF (f64 (-1.0)) (toF64 .ch8 (ch8 (-128))),  -- 724
    eqF (f64 (1.0)) (toF64 .ch8 (ch8 127)),  -- 725
    eq .ch8 (ch8 (-128)) (ofF64 .ch8 (toF64 .ch8 (ch8 (-128)))),  -- 727
    eq .ch8 (ch8 0) (ofF64 .ch8 (toF64 .ch8 (ch8 0))),  -- 728
    eq .ch8 (ch8 127) (ofF64 .ch8 (toF64 .ch8 (ch8 127)))  -- 729
    ] : List Bool).all id = true := by decide +kernel

/-- `ch16_roundtrip` (chan.rs:733). -/
example : ([
    eqF (f64 (-1.0)) (toF64 .ch16 (ch16 (-32768))),  -- 734
    eqF (f64 (1.0)) (toF64 .ch16 (ch16 32767)),  -- 735
    eq .ch16 (ch16 (-32768)) (ofF64 .ch16 (toF64 .ch16 (ch16 (-32768)))),  -- 737
    eq .ch16 (ch16 0) (ofF64 .ch16 (toF64 .ch16 (ch16 0))),  -- 741
    eq .ch16 (ch16 32767) (ofF64 .ch16 (toF64 .ch16 (ch16 32767)))  -- 742
    ] : List Bool).all id = true := by decide +kernel

/-- `ch32_roundtrip` (chan.rs:746). -/
example : ([
    eqF (f64 (-1.0)) (toF64 .ch32 (ch32 (-1.0))),  -- 747
    eqF (f64 (0.0)) (toF64 .ch32 (ch32 0.0)),  -- 748
    eqF (f64 (1.0)) (toF64 .ch32 (ch32 1.0)),  -- 749
    eq .ch32 (ch32 (-1.0)) (ofF64 .ch32 (toF64 .ch32 (ch32 (-1.0)))),  -- 751
    eq .ch32 (ch32 0.0) (ofF64 .ch32 (toF64 .ch32 (ch32 0.0))),  -- 752
    eq .ch32 (ch32 1.0) (ofF64 .ch32 (toF64 .ch32 (ch32 1.0)))  -- 753
    ] : List Bool).all id = true := by decide +kernel

/-- `ch8_to_ch16` (chan.rs:757). -/
example : ([
    eq .ch16 (ch16 (-32768)) (conv .ch16 .ch8 (ch8 (-128))),  -- 758
    eq .ch16 (ch16 32767) (conv .ch16 .ch8 (ch8 127))  -- 759
    ] : List Bool).all id = true := by decide +kernel

/-- `ch16_to_ch8` (chan.rs:763). -/
example : ([
    eq .ch8 (ch8 (-128)) (conv .ch8 .ch16 (ch16 (-32768))),  -- 764
    eq .ch8 (ch8 0) (conv .ch8 .ch16 (ch16 0)),  -- 765
    eq .ch8 (ch8 127) (conv .ch8 .ch16 (ch16 32767))  -- 766
    ] : List Bool).all id = true := by decide +kernel

/-- `ch8_arith` (chan.rs:770). -/
example : ([
    eq .ch8 (ch8 (-1)) (add .ch8 (ch8 (-128)) (ch8 127)),  -- 772
    eq .ch8 (ch8 32) (add .ch8 (ch8 (-32)) (ch8 64)),  -- 773
    eq .ch8 (ch8 127) (add .ch8 (ch8 0) (ch8 127)),  -- 774
    eq .ch8 (ch8 (-128)) (add .ch8 (ch8 (-64)) (ch8 (-64))),  -- 775
    eq .ch8 (ch8 0) (sub .ch8 (ch8 (-128)) (ch8 (-128))),  -- 777
    eq .ch8 (ch8 0) (sub .ch8 (ch8 127) (ch8 127)),  -- 778
    eq .ch8 (ch8 (-127)) (sub .ch8 (ch8 0) (ch8 127)),  -- 779
    eq .ch8 (ch8 0) (mul .ch8 (ch8 0) (ch8 127)),  -- 781
    eq .ch8 (ch8 127) (mul .ch8 (ch8 127) (ch8 127)),  -- 782
    eq .ch8 (ch8 (-128)) (mul .ch8 (ch8 127) (ch8 (-128))),  -- 783
    eq .ch8 (ch8 (-128)) (mul .ch8 (ch8 (-128)) (ch8 127)),  -- 784
    eq .ch8 (ch8 127) (mul .ch8 (ch8 (-128)) (ch8 (-128))),  -- 785
    eq .ch8 (ch8 (-64)) (mul .ch8 (ch8 127) (ch8 (-64))),  -- 786
    eq .ch8 (ch8 0) (div .ch8 (ch8 0) (ch8 127)),  -- 788
    eq .ch8 (ch8 127) (div .ch8 (ch8 127) (ch8 127)),  -- 789
    eq .ch8 (ch8 (-128)) (div .ch8 (ch8 127) (ch8 (-128))),  -- 790
    eq .ch8 (ch8 (-128)) (div .ch8 (ch8 (-128)) (ch8 127)),  -- 791
    eq .ch8 (ch8 127) (div .ch8 (ch8 (-128)) (ch8 (-128))),  -- 792
    eq .ch8 (ch8 (-128)) (div .ch8 (ch8 64) (ch8 (-64)))  -- 793
    ] : List Bool).all id = true := by decide +kernel

/-- `ch16_arith` (chan.rs:797). -/
example : ([
    eq .ch16 (ch16 (-1)) (add .ch16 (ch16 (-32768)) (ch16 32767)),  -- 799
    eq .ch16 (ch16 8192) (add .ch16 (ch16 (-8192)) (ch16 16384)),  -- 800
    eq .ch16 (ch16 32767) (add .ch16 (ch16 0) (ch16 32767)),  -- 801
    eq .ch16 (ch16 (-32768)) (add .ch16 (ch16 (-16384)) (ch16 (-16384))),  -- 802
    eq .ch16 (ch16 0) (sub .ch16 (ch16 (-32768)) (ch16 (-32768))),  -- 804
    eq .ch16 (ch16 0) (sub .ch16 (ch16 32767) (ch16 32767)),  -- 805
    eq .ch16 (ch16 (-32767)) (sub .ch16 (ch16 0) (ch16 32767)),  -- 806
    eq .ch16 (ch16 0) (mul .ch16 (ch16 0) (ch16 32767)),  -- 808
    eq .ch16 (ch16 32767) (mul .ch16 (ch16 32767) (ch16 32767)),  -- 809
    eq .ch16 (ch16 (-32768)) (mul .ch16 (ch16 32767) (ch16 (-32768))),  -- 810
    eq .ch16 (ch16 (-32768)) (mul .ch16 (ch16 (-32768)) (ch16 32767)),  -- 811
    eq .ch16 (ch16 32767) (mul .ch16 (ch16 (-32768)) (ch16 (-32768))),  -- 812
    eq .ch16 (ch16 (-16384)) (mul .ch16 (ch16 32767) (ch16 (-16384))),  -- 813
    eq .ch16 (ch16 0) (div .ch16 (ch16 0) (ch16 32767)),  -- 815
    eq .ch16 (ch16 32767) (div .ch16 (ch16 32767) (ch16 32767)),  -- 816
    eq .ch16 (ch16 (-32768)) (div .ch16 (ch16 32767) (ch16 (-32768))),  -- 817
    eq .ch16 (ch16 (-32768)) (div .ch16 (ch16 (-32768)) (ch16 32767)),  -- 818
    eq .ch16 (ch16 32767) (div .ch16 (ch16 (-32768)) (ch16 (-32768))),  -- 819
    eq .ch16 (ch16 (-32768)) (div .ch16 (ch16 16384) (ch16 (-16384)))  -- 820
    ] : List Bool).all id = true := by decide +kernel

/-- `ch32_arith` (chan.rs:824). -/
example : ([
    eq .ch32 (ch32 0.0) (add .ch32 (ch32 (-1.0)) (ch32 1.0)),  -- 826
    eq .ch32 (ch32 0.25) (add .ch32 (ch32 (-0.25)) (ch32 0.5)),  -- 827
    eq .ch32 (ch32 1.0) (add .ch32 (ch32 0.0) (ch32 1.0)),  -- 828
    eq .ch32 (ch32 (-1.0)) (add .ch32 (ch32 (-0.5)) (ch32 (-0.5))),  -- 829
    eq .ch32 (ch32 0.0) (sub .ch32 (ch32 (-1.0)) (ch32 (-1.0))),  -- 831
    eq .ch32 (ch32 0.0) (sub .ch32 (ch32 1.0) (ch32 1.0)),  -- 832
    eq .ch32 (ch32 (-1.0)) (sub .ch32 (ch32 0.0) (ch32 1.0)),  -- 833
    eq .ch32 (ch32 0.0) (mul .ch32 (ch32 0.0) (ch32 1.0)),  -- 835
    eq .ch32 (ch32 1.0) (mul .ch32 (ch32 1.0) (ch32 1.0)),  -- 836
    eq .ch32 (ch32 (-1.0)) (mul .ch32 (ch32 1.0) (ch32 (-1.0))),  -- 837
    eq .ch32 (ch32 1.0) (mul .ch32 (ch32 (-1.0)) (ch32 (-1.0))),  -- 838
    eq .ch32 (ch32 (-0.5)) (mul .ch32 (ch32 1.0) (ch32 (-0.5))),  -- 839
    eq .ch32 (ch32 0.0) (div .ch32 (ch32 0.0) (ch32 1.0)),  -- 841
    eq .ch32 (ch32 1.0) (div .ch32 (ch32 1.0) (ch32 1.0)),  -- 842
    eq .ch32 (ch32 (-1.0)) (div .ch32 (ch32 1.0) (ch32 (-1.0))),  -- 843
    eq .ch32 (ch32 (-1.0)) (div .ch32 (ch32 (-1.0)) (ch32 1.0)),  -- 844
    eq .ch32 (ch32 1.0) (div .ch32 (ch32 (-1.0)) (ch32 (-1.0))),  -- 845
    eq .ch32 (ch32 (-1.0)) (div .ch32 (ch32 0.5) (ch32 (-0.5)))  -- 846
    ] : List Bool).all id = true := by decide +kernel

/-- `ch64_arith` (chan.rs:850). -/
example : ([
    eq .ch64 (ch64 0.0) (add .ch64 (ch64 (-1.0)) (ch64 1.0)),  -- 852
    eq .ch64 (ch64 0.25) (add .ch64 (ch64 (-0.25)) (ch64 0.5)),  -- 853
    eq .ch64 (ch64 1.0) (add .ch64 (ch64 0.0) (ch64 1.0)),  -- 854
    eq .ch64 (ch64 (-1.0)) (add .ch64 (ch64 (-0.5)) (ch64 (-0.5))),  -- 855
    eq .ch64 (ch64 0.0) (sub .ch64 (ch64 (-1.0)) (ch64 (-1.0))),  -- 857
    eq .ch64 (ch64 0.0) (sub .ch64 (ch64 1.0) (ch64 1.0)),  -- 858
    eq .ch64 (ch64 (-1.0)) (sub .ch64 (ch64 0.0) (ch64 1.0)),  -- 859
    eq .ch64 (ch64 0.0) (mul .ch64 (ch64 0.0) (ch64 1.0)),  -- 861
    eq .ch64 (ch64 1.0) (mul .ch64 (ch64 1.0) (ch64 1.0)),  -- 862
    eq .ch64 (ch64 (-1.0)) (mul .ch64 (ch64 1.0) (ch64 (-1.0))),  -- 863
    eq .ch64 (ch64 1.0) (mul .ch64 (ch64 (-1.0)) (ch64 (-1.0))),  -- 864
    eq .ch64 (ch64 (-0.5)) (mul .ch64 (ch64 1.0) (ch64 (-0.5))),  -- 865
    eq .ch64 (ch64 0.0) (div .ch64 (ch64 0.0) (ch64 1.0)),  -- 867
    eq .ch64 (ch64 1.0) (div .ch64 (ch64 1.0) (ch64 1.0)),  -- 868
    eq .ch64 (ch64 (-1.0)) (div .ch64 (ch64 1.0) (ch64 (-1.0))),  -- 869
    eq .ch64 (ch64 (-1.0)) (div .ch64 (ch64 (-1.0)) (ch64 1.0)),  -- 870
    eq .ch64 (ch64 1.0) (div .ch64 (ch64 (-1.0)) (ch64 (-1.0))),  -- 871
    eq .ch64 (ch64 (-1.0)) (div .ch64 (ch64 0.5) (ch64 (-0.5)))  -- 872
    ] : List Bool).all id = true := by decide +kernel

/-- `ch8_saturation` (chan.rs:876). -/
example : ([
    eq .ch8 (ch8 127) (add .ch8 (ch8 96) (ch8 64)),  -- 877
    eq .ch8 (ch8 (-128)) (add .ch8 (ch8 (-64)) (ch8 (-96))),  -- 878
    eq .ch8 (ch8 (-128)) (sub .ch8 (ch8 (-64)) (ch8 96)),  -- 879
    eq .ch8 (ch8 127) (div .ch8 (ch8 64) (ch8 32)),  -- 880
    eq .ch8 (ch8 (-128)) (div .ch8 (ch8 64) (ch8 (-32)))  -- 881
    ] : List Bool).all id = true := by decide +kernel

/-- `ch16_saturation` (chan.rs:885). -/
example : ([
    eq .ch16 (ch16 32767) (add .ch16 (ch16 24576) (ch16 16384)),  -- 886
    eq .ch16 (ch16 (-32768)) (add .ch16 (ch16 (-16384)) (ch16 (-24576))),  -- 887
    eq .ch16 (ch16 (-32768)) (sub .ch16 (ch16 (-16384)) (ch16 24576)),  -- 888
    eq .ch16 (ch16 32767) (div .ch16 (ch16 16384) (ch16 8192)),  -- 889
    eq .ch16 (ch16 (-32768)) (div .ch16 (ch16 16384) (ch16 (-8192)))  -- 890
    ] : List Bool).all id = true := by decide +kernel

/-- `ch32_saturation` (chan.rs:894). -/
example : ([
    eq .ch32 (ch32 1.0) (add .ch32 (ch32 0.75) (ch32 0.5)),  -- 895
    eq .ch32 (ch32 (-1.0)) (add .ch32 (ch32 (-0.5)) (ch32 (-0.75))),  -- 896
    eq .ch32 (ch32 (-1.0)) (sub .ch32 (ch32 (-0.5)) (ch32 0.75)),  -- 897
    eq .ch32 (ch32 1.0) (div .ch32 (ch32 0.5) (ch32 0.25)),  -- 898
    eq .ch32 (ch32 (-1.0)) (div .ch32 (ch32 0.5) (ch32 (-0.25)))  -- 899
    ] : List Bool).all id = true := by decide +kernel

/-- `ch64_saturation` (chan.rs:903). -/
example : ([
    eq .ch64 (ch64 1.0) (add .ch64 (ch64 0.75) (ch64 0.5)),  -- 904
    eq .ch64 (ch64 (-1.0)) (add .ch64 (ch64 (-0.5)) (ch64 (-0.75))),  -- 905
    eq .ch64 (ch64 (-1.0)) (sub .ch64 (ch64 (-0.5)) (ch64 0.75)),  -- 906
    eq .ch64 (ch64 1.0) (div .ch64 (ch64 0.5) (ch64 0.25)),  -- 907
    eq .ch64 (ch64 (-1.0)) (div .ch64 (ch64 0.5) (ch64 (-0.25)))  -- 908
    ] : List Bool).all id = true := by decide +kernel

end Fon.Tests
