"""Compare the model with a second translation of the Rust source, into Python, on random inputs.

The crate itself is not built or run.  The Python below was written from the text of /repo/src, not from the Lean
model, so a slip in either translation shows up as a difference.  Needs a finished `lake build`."""
import os, random, struct, math, subprocess, sys
here = os.path.dirname(os.path.dirname(os.path.abspath(__file__)))
random.seed(int(sys.argv[1]) if len(sys.argv) > 1 else 3)

class Panic(Exception): pass
def f64(b): return struct.unpack("<d", struct.pack("<Q", b))[0]
def b64(x): return struct.unpack("<Q", struct.pack("<d", x))[0]
def r32(x):
    if math.isnan(x) or math.isinf(x): return x
    try: return struct.unpack("<f", struct.pack("<f", x))[0]
    except OverflowError: return math.copysign(math.inf, x)
def b32(x): return struct.unpack("<I", struct.pack("<f", x))[0]
def f32(b): return struct.unpack("<f", struct.pack("<I", b))[0]
ident = lambda x: x
RND = {32: r32, 64: ident}

# --- core
def fmin(x, y): return y if math.isnan(x) else x if math.isnan(y) else (y if y < x else x)
def fmax(x, y): return y if math.isnan(x) else x if math.isnan(y) else (y if x < y else x)
def fdiv(x, y):
    if math.isnan(x) or math.isnan(y): return math.nan
    if y == 0: return math.nan if x == 0 else math.copysign(math.inf, math.copysign(1, x) * math.copysign(1, y))
    return x / y
def frem(x, y):
    if math.isnan(x) or math.isnan(y) or math.isinf(x) or y == 0: return math.nan
    return math.fmod(x, y)
def as_int(x, lo, hi):
    if math.isnan(x): return 0
    if math.isinf(x): return hi if x > 0 else lo
    return max(lo, min(hi, math.trunc(x)))
def as_usize(x): return as_int(x, 0, 2 ** 64 - 1)
def wrap(v, n): v &= (1 << n) - 1; return v - (1 << n) if v >> (n - 1) else v
EPS = {32: 2.0 ** -23, 64: 2.0 ** -52}

# --- math.rs
def ceil(x, w):
    fract = frem(x, 1.0)
    whole = RND[w](x - fract)
    if fract > EPS[w]: whole = RND[w](whole + 1.0)
    return whole
def floor_i(x, w, n):
    lo, hi = -(1 << (n - 1)), (1 << (n - 1)) - 1
    return as_int(-ceil(-x, w), lo, hi) if x < 0.0 else as_int(x, lo, hi)
def ceil_usize(x):
    fract, whole = frem(x, 1.0), as_usize(x)
    if fract > EPS[64]:
        if whole == 2 ** 64 - 1: raise Panic("overflow")
        whole += 1
    return whole

# --- chan.rs; a sample is an int or a float, its format one of 8, 16, 32, 64
def new(c, v): return v if c <= 16 else fmax(fmin(v, 1.0), -1.0)
def sat(v, n): return max(-(1 << (n - 1)), min((1 << (n - 1)) - 1, v))
def add(c, a, b): return sat(a + b, c) if c <= 16 else fmax(fmin(RND[c](a + b), 1.0), -1.0)
def sub(c, a, b): return sat(a - b, c) if c <= 16 else fmax(fmin(RND[c](a - b), 1.0), -1.0)
def tdiv(a, b): q = abs(a) // abs(b); return q if (a < 0) == (b < 0) else -q
def mul(c, a, b):
    if c <= 16:
        m = (1 << (c - 1)) - 1
        return min(tdiv(a * b, m), m)
    return RND[c](a * b)
def div(c, a, b):
    if c <= 16:
        if b == 0: return (1 << (c - 1)) - 1
        q = tdiv(a << c, b)
        if not -(1 << 31) <= q < 1 << 31: raise Panic("overflow")
        return sat(q, c)
    return fmax(fmin(RND[c](fdiv(a, b)), 1.0), -1.0)
def neg(c, a): return wrap((1 << c) - 1 - (a & ((1 << c) - 1)), c) if c <= 16 else -a
def conv(d, s, x):
    if d == s: return x
    if d <= 16:
        if s > 16: return floor_i(RND[s](x * {8: 127.5, 16: 32767.5}[d]), s, d)
        if d == 8: return wrap(x >> 8, 8)
        u = (x + 128) & 255
        return wrap(u * 257 + 32768, 16)
    if s <= 16:
        a, b = {8: (127.5, 255.0), 16: (32767.5, 65535.0)}[s]
        return RND[d](RND[d](x / a) + RND[d](1.0 / b))
    return new(d, RND[d](x))
def to_f64(c, x): return conv(64, c, x) if c <= 16 else x
def of_f64(c, x): return conv(c, 64, new(64, x)) if c <= 16 else RND[c](x)
def default(c): return 0 if c <= 16 else 0.0
def lerp(c, a, b, t): return add(c, a, mul(c, t, sub(c, b, a)))

# --- frame.rs; a layout is its number of channels
def fadd(c, a, b): return [add(c, x, y) for x, y in zip(a, b)]
def fmul(c, a, b): return [mul(c, x, y) for x, y in zip(a, b)]
def convert(ks, s, kd, d, fr):
    c1 = lambda x: of_f64(d, to_f64(s, x))
    avg = lambda x, y: of_f64(d, (to_f64(s, x) + to_f64(s, y)) * 0.5)
    mid = default(d)
    if ks == kd: return [c1(x) for x in fr]
    if (ks, kd) == (1, 2): return [c1(fr[0])] * 2
    if (ks, kd) == (1, 6): return [mid, c1(fr[0]), mid, c1(fr[0]), mid, mid]
    if (ks, kd) == (2, 6): return [mid, c1(fr[0]), mid, c1(fr[1]), mid, mid]
    if (ks, kd) == (6, 2): return [c1(fr[1]), c1(fr[3])]
    if (ks, kd) == (6, 1): return [avg(fr[1], fr[3])]
    if (ks, kd) == (2, 1): return [avg(fr[0], fr[1])]

# --- ops.rs
def mix(op, k, c, dst, src):
    if op == "src": return src
    if op == "dest": return dst
    if op == "clear": return [default(c)] * k
    if op == "amplify": return [mul(c, s, d) for d, s in zip(dst, src)]
    if op == "plus": return [add(c, s, d) for d, s in zip(dst, src)]
    raise Panic("todo")

# --- streams: (layout, format, rate or None, len or None, list of frames or repeated frame, settable)
class Stream: pass
def audio(k, c, rate, frames):
    s = Stream(); s.k, s.c, s.rate, s.len, s.settable = k, c, rate, len(frames), False
    s.it = lambda: iter(list(frames)); s.enc = [0, k, c, b64(rate), len(frames)] + [enc(c, x) for f in frames for x in f]
    return s
def frame(k, c, f):
    s = Stream(); s.k, s.c, s.rate, s.len, s.settable = k, c, None, None, True
    def g():
        while True: yield f
    s.it = g; s.enc = [1, k, c] + [enc(c, x) for x in f]
    return s
def take(t, n):
    s = Stream(); s.k, s.c, s.rate, s.settable = t.k, t.c, t.rate, t.settable
    s.len = n if t.len is None else min(t.len, n)
    def g():
        it = t.it()
        for _ in range(n):
            x = next(it, None)
            if x is None: return
            yield x
    s.it = g; s.enc = [2, n] + t.enc
    return s
OPN = ["src", "dest", "clear", "amplify", "plus", "compress"]
def blend(a, b, op):
    s = Stream(); s.k, s.c = a.k, a.c
    if not ((a.rate is None) == (b.rate is None) and a.rate == b.rate):
        if a.rate is not None and b.rate is not None: raise Panic("assert")
        if a.rate is None and not a.settable: raise Panic("setSampleRate")
        if b.rate is None and not b.settable: raise Panic("setSampleRate")
    s.rate = a.rate  # frames ignore set_sample_rate
    s.settable = a.settable and b.settable
    s.len = b.len if a.len is None else a.len if b.len is None else min(a.len, b.len)
    def g():
        ia, ib = a.it(), b.it()
        while True:
            x = next(ia, None)
            if x is None: return
            y = next(ib, None)
            if y is None: return
            yield mix(OPN[op], a.k, a.c, x, convert(b.k, b.c, a.k, a.c, y))
    s.it = g; s.enc = [3, op] + a.enc + b.enc
    return s

# --- Sink (streaming.rs)
class Sink: pass
def stream(k, st):
    if st.rate is not None: ratio = fdiv(k.rate, st.rate)
    else:
        if not st.settable: raise Panic("setSampleRate")
        ratio = 1.0
    if len(k.buf) > 0: k.buf[0] = fadd(k.c, k.buf[0], k.partial)
    srclen = st.len
    end = len(k.buf) if st.len is None else min(as_usize(ratio * float(st.len)), len(k.buf))
    for i in range(end): k.buf[i] = [default(k.c)] * k.k
    it = st.it()
    i = 0
    while True:
        if i > 400: raise Panic("outOfFuel")
        j = ratio * float(i) + k.off
        cl = ceil_usize(j); fl = as_usize(j)
        if not fl < end: srclen = i; break
        cf = fmin(frem(j, 1.0), ratio)
        ca = [of_f64(k.c, cf)] * k.k
        fa = [of_f64(k.c, ratio - cf)] * k.k
        src = next(it, None)
        if src is None: break
        src = convert(st.k, st.c, k.k, k.c, src)
        k.buf[fl] = fadd(k.c, k.buf[fl], fmul(k.c, src, fa))
        if cl < end: k.buf[cl] = fadd(k.c, k.buf[cl], fmul(k.c, src, ca))
        else: k.partial = fadd(k.c, k.partial, fmul(k.c, src, ca))
        i += 1
    if srclen is None: raise Panic("unwrapNone")
    k.off = k.off + ratio * float(srclen)
def flush(k):
    r = frem(k.off, 1.0)
    if r > EPS[64] or r < -EPS[64]:
        i = as_usize(k.off)
        if i >= len(k.buf): raise Panic("bounds")
        k.buf[i] = list(k.partial)
# --- audio.rs
def extend(k, c, rate, frames, st):
    if st.len is None: raise Panic("unwrapNone")
    n = as_usize(ceil(fdiv(rate * float(st.len), st.rate), 64)) if st.rate is not None else st.len
    if n > 2000: raise Panic("big")
    s = Sink(); s.k, s.c, s.rate, s.buf = k, c, rate, [[default(c)] * k for _ in range(n)]
    s.partial, s.off = [default(c)] * k, 0.0
    stream(s, st); flush(s)
    return frames + s.buf

# --- encoding
def enc(c, x): return x & ((1 << c) - 1) if c <= 16 else b32(x) if c == 32 else b64(x)
def show(c, x):
    if c <= 16: return str(x)
    if math.isnan(x): return "nan"
    if math.isinf(x): return "inf" if x > 0 else "-inf"
    if x == 0: return "-0" if math.copysign(1, x) < 0 else "0/1"
    return "%d/%d" % x.as_integer_ratio()
def shf(c, fs): return " ".join(show(c, x) for f in fs for x in f)

def rnd_sample(c, wild=False):
    if c <= 16: return random.choice([-(1 << (c - 1)), (1 << (c - 1)) - 1, 0, -1, 1, wrap(random.getrandbits(c), c), wrap(random.getrandbits(c), c)])
    x = random.choice([0.0, -0.0, 1.0, -1.0, random.uniform(-1, 1), random.uniform(-1, 1), random.uniform(-1, 1), random.uniform(-1, 1) * 2.0 ** random.randint(-40, 0)])
    if wild and random.random() < .3: x = random.choice([math.inf, -math.inf, math.nan, 1e300, -1e300, 5e-324, random.uniform(-5, 5)])
    return RND[c](x)
FMT = [8, 16, 32, 64]; LAY = [1, 2, 6]
def rnd_frame(k, c): return [rnd_sample(c) for _ in range(k)]
RATES = [8000.0, 16000.0, 22050.0, 44100.0, 48000.0, 96000.0, 1.0, 2.0, 3.0, 0.1, 0.3, 1e3 / 7, 5.0, 7.0]
def rnd_stream(depth=0):
    t = random.random()
    k, c = random.choice(LAY), random.choice(FMT)
    if depth < 2 and t < .2: return take(rnd_stream(depth + 1), random.randint(0, 8))
    if depth < 2 and t < .4:
        a, b = rnd_stream(depth + 1), rnd_stream(depth + 1)
        try: return blend(a, b, random.choice([0, 1, 2, 3, 4, 4, 3, 5]))
        except Panic: return a
    if t < .5: return frame(k, c, rnd_frame(k, c))
    return audio(k, c, random.choice(RATES), [rnd_frame(k, c) for _ in range(random.randint(0, 12))])

cases, expect = [], []
def case(nums, f):
    try: e = f()
    except Panic as p:
        if str(p) == "big": return
        e = "panic " + str(p)
    cases.append(" ".join(map(str, nums))); expect.append(e)

for _ in range(6000):
    c = random.choice(FMT); a, b, t = (rnd_sample(c, True) for _ in range(3))
    case([0, c, enc(c, a), enc(c, b), enc(c, t)], lambda: " ".join([show(c, v) for v in (
        add(c, a, b), sub(c, a, b), mul(c, a, b), neg(c, a), lerp(c, a, b, t), new(c, a))]))
    case([1, c, enc(c, a), enc(c, b)], lambda: show(c, div(c, a, b)))
    d = random.choice(FMT)
    case([2, d, c, enc(c, a)], lambda: " ".join([show(d, conv(d, c, a)), show(64, to_f64(c, a)), show(d, of_f64(d, to_f64(c, a)))]))
for _ in range(1500):
    ks, s, kd, d = random.choice(LAY), random.choice(FMT), random.choice(LAY), random.choice(FMT)
    fr = rnd_frame(ks, s)
    case([3, ks, s, kd, d] + [enc(s, x) for x in fr], lambda: shf(d, [convert(ks, s, kd, d, fr)]))
for _ in range(2500):
    k = Sink(); k.k, k.c, k.rate = random.choice(LAY), random.choice(FMT), random.choice(RATES)
    k.buf = [rnd_frame(k.k, k.c) for _ in range(random.randint(0, 12))]
    k.partial = rnd_frame(k.k, k.c); k.off = random.choice([0.0, 0.0, 0.5, 1.25, -0.5, 3.0, random.uniform(0, 6), random.uniform(-2, 0)])
    st = rnd_stream(); st2 = rnd_stream()
    e = [4, k.k, k.c, b64(k.rate), b64(k.off)] + [enc(k.c, x) for x in k.partial] + [len(k.buf)] + [enc(k.c, x) for f in k.buf for x in f] + st.enc + st2.enc
    def run():
        stream(k, st)
        one = f"{show(64, k.off)} {shf(k.c, [k.partial])} {shf(k.c, k.buf)}"
        stream(k, st2)
        two = f"{show(64, k.off)} {shf(k.c, [k.partial])} {shf(k.c, k.buf)}"
        flush(k)
        return f"{one} ; {two} ; {shf(k.c, k.buf)}"
    case(e, run)
for _ in range(1500):
    k, c, rate = random.choice(LAY), random.choice(FMT), random.choice(RATES)
    fr = [rnd_frame(k, c) for _ in range(random.randint(0, 4))]
    st = rnd_stream()
    case([5, k, c, b64(rate), len(fr)] + [enc(c, x) for f in fr for x in f] + st.enc, lambda: shf(c, extend(k, c, rate, fr, st)))

lean = r'''
import Verif.Model.Audio
open Fon
def dec (f : Fmt) (mant : Nat) (ebits : Nat) (b : Nat) : Fl f :=
  let s := b / 2 ^ (mant + ebits) % 2 = 1
  let e := b / 2 ^ mant % 2 ^ ebits
  let m := b % 2 ^ mant
  let bias : ℤ := 2 ^ (ebits - 1) - 1
  if e = 2 ^ ebits - 1 then (if m = 0 then .inf s else .nan)
  else
    let q : ℚ := if e = 0 then m * (2:ℚ) ^ (1 - bias - mant) else (m + 2 ^ mant : ℕ) * (2:ℚ) ^ ((e:ℤ) - bias - mant)
    Fl.ofQ f s (if s then -q else q)
def shw {f : Fmt} : Fl f → String
  | .nan => "nan" | .inf s => if s then "-inf" else "inf"
  | .fin q nz _ => if nz then "-0" else s!"{q.num}/{q.den}"
def shS : (c : ChTy) → c.T → String
  | .ch8, x => toString x.toInt | .ch16, x => toString x.toInt | .ch32, x => shw x | .ch64, x => shw x
def chOf : Nat → ChTy | 8 => .ch8 | 16 => .ch16 | 32 => .ch32 | _ => .ch64
def kOf : Nat → Kind | 1 => .mono | 2 => .stereo | _ => .surround
def deS : (c : ChTy) → Nat → c.T
  | .ch8, n => BitVec.ofNat 8 n | .ch16, n => BitVec.ofNat 16 n | .ch32, n => dec binary32 23 8 n | .ch64, n => dec binary64 52 11 n
def dF (n : Nat) : F64 := dec binary64 52 11 n
abbrev P := StateM (List Nat)
def nat : P Nat := do match ← get with | x :: xs => set xs; return x | [] => return 0
def sample (c : ChTy) : P c.T := do return deS c (← nat)
def fr (k : Kind) (c : ChTy) : P (Frame k c) := do
  let mut v : Frame k c := Frame.dflt
  for h : i in [0:k.chans] do v := v.set i (← sample c) h.upper
  return v
def frs (k : Kind) (c : ChTy) : P (List (Frame k c)) := do
  let n ← nat
  let mut l := []
  for _ in [0:n] do l := (← fr k c) :: l
  return l.reverse
def opOf : Nat → Blend | 0 => .src | 1 => .dest | 2 => .clear | 3 => .amplify | 4 => .plus | _ => .compress
structure AnySrc where
  k : Kind
  c : ChTy
  s : Src k c
instance : Inhabited AnySrc := ⟨⟨.mono, .ch8, .frame Frame.dflt⟩⟩
instance : Inhabited (Except Panic AnySrc) := ⟨.error .assert⟩
partial def src : P (Except Panic AnySrc) := do
  match ← nat with
  | 0 => let k := kOf (← nat); let c := chOf (← nat); let r := dF (← nat); return .ok ⟨k, c, .audio ⟨r, ← frs k c⟩⟩
  | 1 => let k := kOf (← nat); let c := chOf (← nat); return .ok ⟨k, c, .frame (← fr k c)⟩
  | 2 => let n ← nat; match ← src with
    | .ok a => return .ok ⟨a.k, a.c, a.s.mkTake n⟩
    | e => return e
  | _ => let o := opOf (← nat); let a ← src; let b ← src
         match a, b with
         | .ok a, .ok b => match a.s.mkBlend b.s o with
           | .ok s => return .ok ⟨a.k, a.c, s⟩
           | .error e => return .error e
         | _, _ => return .error .assert
def shP : Panic → String
  | .overflow => "panic overflow" | .divByZero => "panic divByZero" | .bounds => "panic bounds" | .unwrapNone => "panic unwrapNone"
  | .assert => "panic assert" | .todo => "panic todo" | .customConvert => "panic customConvert" | .panMono => "panic panMono"
  | .setSampleRate => "panic setSampleRate" | .capacity => "panic capacity" | .outOfFuel => "panic outOfFuel"
def shF {k : Kind} {c : ChTy} (l : List (Frame k c)) : String :=
  " ".intercalate (l.flatMap fun f => f.toList.map (shS c))
def res (r : R String) : String := match r with | .ok s => s | .error e => shP e
def go : P String := do
  match ← nat with
  | 0 =>
    let c := chOf (← nat); let a ← sample c; let b ← sample c; let t ← sample c
    let nw : c.T := match c, a with | .ch8, a => Ch8.new a | .ch16, a => Ch16.new a | .ch32, a => ChF.new a | .ch64, a => ChF.new a
    return " ".intercalate ([c.add a b, c.sub a b, c.mul a b, c.neg a, c.lerp a b t, nw].map (shS c))
  | 1 => let c := chOf (← nat); let a ← sample c; let b ← sample c; return res ((c.div a b).map (shS c))
  | 2 =>
    let d := chOf (← nat); let c := chOf (← nat); let a ← sample c
    return " ".intercalate [shS d (ChTy.conv d c a), shw (c.toF64 a), shS d (d.ofF64 (c.toF64 a))]
  | 3 =>
    let ks := kOf (← nat); let s := chOf (← nat); let kd := kOf (← nat); let d := chOf (← nat); let f ← fr ks s
    return res ((f.convert d : R (Frame kd d)).map fun x => shF [x])
  | 4 =>
    let k := kOf (← nat); let c := chOf (← nat); let r := dF (← nat); let o := dF (← nat)
    let p ← fr k c; let b ← frs k c
    let s1 ← src; let s2 ← src
    let sh (s : Sink k c) : String := shw s.res.offseti ++ " " ++ shF [s.res.partial_] ++ " " ++ shF s.buf
    return res do
      let x ← s1; let y ← s2
      let (s, _) ← (⟨r, ⟨p, o⟩, b⟩ : Sink k c).stream 401 x.s
      let (t, _) ← s.stream 401 y.s
      let u ← t.flush
      return sh s ++ " ; " ++ sh t ++ " ; " ++ shF u.buf
  | _ =>
    let k := kOf (← nat); let c := chOf (← nat); let r := dF (← nat); let b ← frs k c
    let s1 ← src
    return res do
      let x ← s1
      let (a, e) := (Audio.withFrames r b : Audio k c).extend x.s
      let _ ← e
      return shF a.frames
def main (args : List String) : IO Unit := do
  for l in (← IO.FS.lines args.head!) do
    IO.println ((go.run ((l.splitOn " ").map String.toNat!)).1)
'''
open("/tmp/pc.lean", "w").write(lean)
open("/tmp/pc.in", "w").write("\n".join(cases) + "\n")
out = subprocess.run(["lake", "env", "lean", "--run", "/tmp/pc.lean", "/tmp/pc.in"], cwd=os.path.join(here, "lean"),
                     capture_output=True, text=True)
assert out.returncode == 0, out.stderr[:2000] + out.stdout[:2000]
lines = out.stdout.split("\n")[:-1]
assert len(lines) == len(cases), (len(lines), len(cases))
bad = 0; hist = {}
for c, e, g in zip(cases, expect, lines):
    kind = c.split(" ")[0]
    hist.setdefault(kind, [0, 0])[0] += 1
    hist[kind][1] += e.startswith("panic")
    if e.split() != g.split():
        bad += 1
        if bad < 10: print("DIFF", c[:300], "\n  python", e[:400], "\n  model ", g[:400])
print("cases and panics per kind:", hist, "differences:", bad)
