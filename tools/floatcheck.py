"""Compare the float model (lean/Verif/Float/Fl.lean) with the floats of the machine on random and on special operands.

Needs a finished `lake build`.  Prints the number of comparisons and every difference.
The sign of a NaN is not compared, nor the sign of zero of min and max (both are left open by Rust)."""
import os, random, struct, math, subprocess
here = os.path.dirname(os.path.dirname(os.path.abspath(__file__)))
random.seed(7)

def f64(b): return struct.unpack("<d", struct.pack("<Q", b))[0]
def b64(x): return struct.unpack("<Q", struct.pack("<d", x))[0]
def f32(b): return struct.unpack("<f", struct.pack("<I", b))[0]
def b32(x):
    try: return struct.unpack("<I", struct.pack("<f", x))[0]
    except OverflowError: return 0x7f800000 if x > 0 else 0xff800000

SP64 = [0, 1, 2, 0x000fffffffffffff, 0x0010000000000000, 0x0010000000000001, 0x3ff0000000000000, 0x3ff0000000000001,
        0x3fefffffffffffff, 0x3fe0000000000000, 0x4000000000000000, 0x43e0000000000000, 0x43f0000000000000,
        0x7fefffffffffffff, 0x7ff0000000000000, 0x7ff8000000000000, 0x4330000000000000, 0x4340000000000001,
        0x3cb0000000000000, b64(0.1), b64(127.5), b64(32767.5), b64(1.5), b64(2.5), b64(-3.5), b64(1e300), b64(48000.0), b64(44100.0)]
SP64 += [x | (1 << 63) for x in SP64]
SP32 = [0, 1, 0x7fffff, 0x800000, 0x3f800000, 0x3f800001, 0x3f7fffff, 0x3f000000, 0x7f7fffff, 0x7f800000, 0x7fc00000,
        0x4b000000, 0x4b800001, 0x34000000, b32(127.5), b32(0.1), b32(2.5)]
SP32 += [x | (1 << 31) for x in SP32]

def r64():
    k = random.random()
    if k < .2: return random.choice(SP64)
    if k < .5: return random.getrandbits(64)
    if k < .8: return b64(random.uniform(-2, 2))
    return b64(random.uniform(-1, 1) * 2.0 ** random.randint(-60, 70))
def r32():
    k = random.random()
    if k < .2: return random.choice(SP32)
    if k < .5: return random.getrandbits(32)
    if k < .8: return b32(random.uniform(-2, 2))
    return b32(random.uniform(-1, 1) * 2.0 ** random.randint(-60, 70))

def div(x, y):
    if math.isnan(x) or math.isnan(y): return math.nan
    if y == 0:
        if x == 0: return math.nan
        return math.copysign(math.inf, math.copysign(1, x) * math.copysign(1, y))
    return x / y
def rem(x, y):
    if math.isnan(x) or math.isnan(y) or math.isinf(x) or y == 0: return math.nan
    return math.fmod(x, y)
def mn(x, y):
    if math.isnan(x): return y
    if math.isnan(y): return x
    return y if y < x else x
def mx(x, y):
    if math.isnan(x): return y
    if math.isnan(y): return x
    return y if x < y else x
def sat(x, lo, hi):
    if math.isnan(x): return 0
    if math.isinf(x): return hi if x > 0 else lo
    return max(lo, min(hi, math.trunc(x)))
def safe(f, x, y):
    try: return f(x, y)
    except OverflowError: return math.nan
OPS = [("add", lambda x, y: x + y), ("sub", lambda x, y: x - y), ("mul", lambda x, y: x * y), ("div", div), ("rem", rem),
       ("min", mn), ("max", mx)]

N = 4000
c64 = [(a, b) for a in SP64 for b in SP64] + [(r64(), r64()) for _ in range(N)]
c32 = [(a, b) for a in SP32 for b in SP32] + [(r32(), r32()) for _ in range(N)]
# ties: sums of numbers half a unit apart
for _ in range(500):
    a = random.getrandbits(52) | (0x3ff << 52); c64.append((a, 0x3ca << 52)); c64.append((a, 0xbca << 52))
    a = random.getrandbits(23) | (0x7f << 23); c32.append((a, (0x7f - 24) << 23)); c32.append((a, (1 << 31) | (0x7f - 24) << 23))

lean = r'''
import Verif.Model.Rust
open Fon
def dec (f : Fmt) (mant : Nat) (ebits : Nat) (b : Nat) : Fl f :=
  let s := b / 2 ^ (mant + ebits) % 2 = 1
  let e := b / 2 ^ mant % 2 ^ ebits
  let m := b % 2 ^ mant
  let bias : ℤ := 2 ^ (ebits - 1) - 1
  if e = 2 ^ ebits - 1 then (if m = 0 then .inf s else .nan)
  else
    let q : ℚ := if e = 0 then m * (2:ℚ) ^ (1 - bias - mant) else (m + 2 ^ mant : ℕ) * (2:ℚ) ^ ((e:ℤ) - bias - mant)
    Fl.ofQ f s (if s then -q else q)
def shw {f : Fmt} : Fl f → String
  | .nan => "nan" | .inf s => if s then "-inf" else "inf"
  | .fin q nz _ => if nz then "-0" else s!"{q.num}/{q.den}"
def go (f : Fmt) (mant ebits a b : Nat) : String :=
  let x := dec f mant ebits a; let y := dec f mant ebits b
  let o := [x.add y, x.sub y, x.mul y, x.div y, x.rem y, x.min y, x.max y, x.neg]
  " ".intercalate (o.map shw ++ [toString (x.lt y), toString (x.eq y), toString (x.le y),
    toString (x.toI 8).toInt, toString (x.toI 16).toInt, toString x.toUsize,
    shw (x.cast binary32), shw (x.cast binary64)])
def main (args : List String) : IO Unit := do
  for l in (← IO.FS.lines args.head!) do
    match (l.splitOn " ").map String.toNat! with
    | [w, a, b] => IO.println (if w = 64 then go binary64 52 11 a b else go binary32 23 8 a b)
    | _ => pure ()
'''
open("/tmp/fc.lean", "w").write(lean)
with open("/tmp/fc.in", "w") as f:
    for a, b in c64: f.write(f"64 {a} {b}\n")
    for a, b in c32: f.write(f"32 {a} {b}\n")
out = subprocess.run(["lake", "env", "lean", "--run", "/tmp/fc.lean", "/tmp/fc.in"], cwd=os.path.join(here, "lean"),
                     capture_output=True, text=True)
assert out.returncode == 0, out.stderr[:2000] + out.stdout[:2000]
lines = out.stdout.strip().split("\n")
assert len(lines) == len(c64) + len(c32), (len(lines), lines[:3])

def shw(x):
    if math.isnan(x): return "nan"
    if math.isinf(x): return "inf" if x > 0 else "-inf"
    if x == 0: return "-0" if math.copysign(1, x) < 0 else "0/1"
    n, d = x.as_integer_ratio()
    return f"{n}/{d}"
cmp = bad = 0
for i, l in enumerate(lines):
    w = 64 if i < len(c64) else 32
    a, b = (c64 + c32)[i]
    dec, rnd = (f64, lambda x: x) if w == 64 else (f32, lambda x: f32(b32(x)))
    x, y = dec(a), dec(b)
    exp = [shw(rnd(safe(f, x, y))) for _, f in OPS] + [shw(-x)]
    exp += [str(v).lower() for v in (x < y, x == y, x <= y)]
    exp += [str(sat(x, -128, 127)), str(sat(x, -32768, 32767)), str(sat(x, 0, 2 ** 64 - 1))]
    exp += [shw(f32(b32(x))), shw(x)]
    got = l.split(" ")
    names = [n for n, _ in OPS] + ["neg", "lt", "eq", "le", "i8", "i16", "usize", "f32", "f64"]
    for n, e, g in zip(names, exp, got):
        cmp += 1
        if e != g and not (n in ("min", "max") and {e, g} == {"-0", "0/1"}):
            bad += 1
            if bad < 20: print("DIFF", w, hex(a), hex(b), x, y, n, "machine", e, "model", g)
print(cmp, "comparisons,", bad, "differences")
