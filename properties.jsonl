{"id": "C01", "title": "Integer add and sub saturate", "statement": "Adding or subtracting two Ch8 (Ch16) values gives exactly the mathematical sum or difference clamped to [-128,127] ([-32768,32767]); it never wraps and never panics, and += / -= store the same value.", "quantifier": "every pair of Ch8 values and every pair of Ch16 values", "why_tests_cant": "2^32 operand pairs for Ch16; the unit tests check four sums", "anchors": ["src/chan.rs:Add for Ch8/Ch16", "src/chan.rs:Sub for Ch8/Ch16", "src/chan.rs:AddAssign", "src/chan.rs:SubAssign"]}
{"id": "C02", "title": "Integer multiplication is scaled, saturating and panic free", "statement": "Multiplying two Ch8 (Ch16) values gives the product divided by 127 (32767) rounded toward zero, clamped at the top; no intermediate overflows, the final narrowing cast never changes the value, MAX is a two-sided unit, MID annihilates, and the product is commutative.", "quantifier": "every pair of Ch8 values and every pair of Ch16 values", "why_tests_cant": "2^32 operand pairs for Ch16; overflow of an intermediate or of the `as` cast shows only at extreme operands", "anchors": ["src/chan.rs:Mul for Ch8", "src/chan.rs:Mul for Ch16", "src/chan.rs:MulAssign"]}
{"id": "C03", "title": "Integer division never panics", "statement": "Dividing two Ch8 (Ch16) values always returns: MAX when the divisor is zero, otherwise the dividend shifted left by 8 (16) bits over the divisor, rounded toward zero and clamped to the channel range. It never panics.", "quantifier": "every pair of Ch8 values and every pair of Ch16 values", "why_tests_cant": "the only bad pair for Ch16 is one of 2^32", "anchors": ["src/chan.rs:Div for Ch8", "src/chan.rs:Div for Ch16", "src/chan.rs:DivAssign"]}
{"id": "C04", "title": "Negation is an order-reversing involution that never overflows", "statement": "-x on Ch8/Ch16 is -1-x: applying it twice gives x back, it reverses the order, exchanges MIN and MAX and never panics. On Ch32/Ch64 it flips the sign and is its own inverse.", "quantifier": "every Ch8, Ch16, Ch32 and Ch64 value", "why_tests_cant": "Ch64 has 2^64 values, and two's-complement negation traditionally fails at exactly one value", "anchors": ["src/chan.rs:Neg for Ch8/Ch16/Ch32/Ch64"]}
{"id": "C05", "title": "Ch8 to Ch16 widening is lossless and monotone", "statement": "Ch16::from(Ch8) maps c to 257*c+128: it is strictly increasing, sends MIN to MIN and MAX to MAX, and Ch8::from of the result gives c back.", "quantifier": "every Ch8 value", "why_tests_cant": "the unit test checks the two end points", "anchors": ["src/chan.rs:From<Ch8> for Ch16", "src/chan.rs:From<Ch16> for Ch8"]}
{"id": "C06", "title": "Ch8 survives a trip through either float format", "statement": "Ch8 -> Ch64 -> Ch8, Ch8 -> Ch32 -> Ch8 and Ch8::from_f64(x.to_f64()) all return the original sample, in IEEE-754 arithmetic with its roundings.", "quantifier": "every Ch8 value", "why_tests_cant": "tests check three values; the result depends on rounding in four float operations and a hand-written floor", "anchors": ["src/chan.rs:From<Ch8> for Ch32/Ch64", "src/chan.rs:From<Ch32/Ch64> for Ch8", "src/chan.rs:Channel for Ch8", "src/math.rs:floor_i8", "src/math.rs:floorh_i8"]}
{"id": "C07", "title": "Ch16 survives a trip through either float format", "statement": "Ch16 -> Ch64 -> Ch16, Ch16 -> Ch32 -> Ch16 and Ch16::from_f64(x.to_f64()) all return the original sample, in IEEE-754 arithmetic with its roundings (for Ch32 with only 24 bits of mantissa).", "quantifier": "every Ch16 value", "why_tests_cant": "65536 values through inexact float arithmetic; tests check three", "anchors": ["src/chan.rs:From<Ch16> for Ch32/Ch64", "src/chan.rs:From<Ch32/Ch64> for Ch16", "src/chan.rs:Channel for Ch16", "src/math.rs:floor_i16", "src/math.rs:floorh_i16"]}
{"id": "C08", "title": "Integer to float conversion stays in range, hits the end points and is strictly increasing", "statement": "to_f64 and From into Ch32/Ch64 send MIN to exactly -1.0 and MAX to exactly 1.0, every value lands in [-1,1], and a larger sample gives a strictly larger float.", "quantifier": "every Ch8 and Ch16 value, both float formats", "why_tests_cant": "strictness could fail between any two neighbours because of rounding", "anchors": ["src/chan.rs:From<Ch8> for Ch32/Ch64", "src/chan.rs:From<Ch16> for Ch32/Ch64", "src/chan.rs:to_f64"]}
{"id": "C09", "title": "Constructing a float channel always lands in [-1,1]", "statement": "Ch32::new, Ch32::from(f32), Ch64::new, Ch32::from(Ch64), Ch64::from(Ch32) return a finite value in [-1,1] for every argument: out-of-range values are clamped, infinities go to the end points and NaN becomes 1.0; in-range values are unchanged.", "quantifier": "every f32 / f64 bit pattern including NaN, infinities, subnormals and signed zeros", "why_tests_cant": "2^64 arguments; the behaviour of NaN is decided by the order of min and max", "anchors": ["src/chan.rs:Ch32::new", "src/chan.rs:Ch64::new", "src/chan.rs:From<f32> for Ch32", "src/chan.rs:From<Ch64> for Ch32", "src/chan.rs:From<Ch32> for Ch64"]}
{"id": "C10", "title": "Float add, sub and div saturate for all operands", "statement": "Adding, subtracting or dividing two Ch32 or two Ch64 values yields a finite value in [-1,1] whatever the operands are (NaN, infinite, out of range, zero divisor), equal to the IEEE result clamped; a NaN result becomes 1.0.", "quantifier": "every pair of f32 operands and every pair of f64 operands", "why_tests_cant": "2^128 operand pairs", "anchors": ["src/chan.rs:Add for Ch32/Ch64", "src/chan.rs:Sub for Ch32/Ch64", "src/chan.rs:Div for Ch32/Ch64"]}
{"id": "C11", "title": "In-range samples stay in range under any chain of channel operations", "statement": "Starting from values built by new/From, any sequence of +, -, *, /, negation, lerp and format conversions, across all four channel types, yields float samples in [-1,1] that are never NaN.", "quantifier": "every expression tree of channel operations of any size over any constructor inputs", "why_tests_cant": "unbounded histories; multiplication and negation do not clamp so the invariant relies on the operands", "anchors": ["src/chan.rs:Mul for Ch32/Ch64", "src/chan.rs:Neg", "src/chan.rs:Channel::lerp", "src/chan.rs"]}
{"id": "C12", "title": "Quantising is monotone and saturating", "statement": "Ch8::from_f64 and Ch16::from_f64, and From<Ch32>/From<Ch64> into Ch8/Ch16, never map a larger input to a smaller sample; inputs >= 1.0 (and NaN) give MAX for from_f64, inputs <= -1.0 give MIN.", "quantifier": "every pair of ordered f64 / f32 inputs", "why_tests_cant": "a monotonicity violation would be at two adjacent floats around one of 65536 steps", "anchors": ["src/chan.rs:from_f64", "src/chan.rs:From<Ch64> for Ch8/Ch16", "src/chan.rs:From<Ch32> for Ch8/Ch16", "src/math.rs:floor_i8", "src/math.rs:floor_i16", "src/math.rs:ceil"]}
{"id": "C13", "title": "Quantisation error is at most half a step", "statement": "For any x in [-1,1], Ch8::from_f64(x).to_f64() differs from x by at most 1/255 and Ch16::from_f64(x).to_f64() by at most 1/65535, up to float rounding error.", "quantifier": "every f64 in [-1,1]", "why_tests_cant": "2^62 inputs", "anchors": ["src/chan.rs:from_f64", "src/chan.rs:to_f64", "src/math.rs:floor_i8", "src/math.rs:floor_i16"]}
{"id": "C14", "title": "Ch32 survives a trip through f64", "statement": "Ch32::from_f64(x.to_f64()) is x for every f32 including NaN and the infinities; Ch32 -> Ch64 -> Ch32 is the identity on samples in [-1,1].", "quantifier": "every f32 value", "why_tests_cant": "2^32 values through two format conversions", "anchors": ["src/chan.rs:Channel for Ch32", "src/chan.rs:From<Ch32> for Ch64", "src/chan.rs:From<Ch64> for Ch32"]}
{"id": "C15", "title": "Silence is preserved by format conversion", "statement": "Converting MID (silence) from one channel format to another gives MID.", "quantifier": "every ordered pair of the four channel formats", "why_tests_cant": "holds for some pairs only: the conversion formula is affine for integer sources", "anchors": ["src/chan.rs:From impls", "src/chan.rs:MID", "src/chan.rs:to_f64"]}
{"id": "C16", "title": "Direct and via-f64 conversions agree", "statement": "Converting a channel with From gives the same sample as D::from_f64(src.to_f64()), which is what frame conversion uses.", "quantifier": "every value of every channel format in range, every ordered pair of formats", "why_tests_cant": "Ch16 to Ch8 uses a shift in one path and scaled floor in the other; they differ at sparse inputs", "anchors": ["src/chan.rs:From impls", "src/chan.rs:from_f64", "src/frame.rs:Frame::convert"]}
{"id": "C17", "title": "lerp hits both end points", "statement": "a.lerp(b, MID) is a, and a.lerp(b, MAX) is b.", "quantifier": "every pair of channel values of each of the four formats", "why_tests_cant": "subtraction saturates, so the failing pairs are those more than half the range apart", "anchors": ["src/chan.rs:Channel::lerp", "src/frame.rs:Frame::lerp"]}
{"id": "C18", "title": "Addition and multiplication commute in every format", "statement": "a + b == b + a and a * b == b * a for channels and for frames, including NaN, infinities and signed zeros.", "quantifier": "every pair of values of every channel format and every frame kind", "why_tests_cant": "2^128 operand pairs for Ch64", "anchors": ["src/chan.rs:Add", "src/chan.rs:Mul", "src/mono.rs", "src/stereo.rs", "src/surround.rs"]}
{"id": "C19", "title": "Frame arithmetic acts on each channel alone", "statement": "For Mono, Stereo and Surround frames channel i of a+b, a-b, a*b, -a and lerp is the same operation on channel i of the operands, compound assignment stores the same frame, and a/b panics exactly when one channel's division panics.", "quantifier": "every pair of frames of each kind and each channel format", "why_tests_cant": "six-channel frames over 64-bit channels", "anchors": ["src/mono.rs:Add/Sub/Mul/Div/Neg", "src/stereo.rs:Add/Sub/Mul/Div/Neg", "src/surround.rs:Add/Sub/Mul/Div/Neg", "src/frame.rs:Frame::lerp"]}
{"id": "C20", "title": "Frame constructors fill every channel, and channels round-trip", "statement": "from_channel, from_mono and from_f64 set every channel to the given value; from_channels(f.channels()) is f; from_channels panics exactly when the slice is shorter than the channel count and ignores extra elements.", "quantifier": "every channel value, every slice length, every frame kind", "why_tests_cant": "unbounded slices", "anchors": ["src/frame.rs:from_f64", "src/frame.rs:from_channel", "src/frame.rs:from_mono", "src/mono.rs:from_channels", "src/stereo.rs:from_channels", "src/surround.rs:from_channels"]}
{"id": "C21", "title": "Converting to the same speaker layout keeps channel order and loses nothing", "statement": "convert between frames of the same layout converts each channel through f64 in place; between equal formats it is the identity, and Ch8/Ch16 samples survive a detour through any wider format.", "quantifier": "every frame of every kind and every pair of channel formats", "why_tests_cant": "the loop runs over six slots whatever the layout, and the identity depends on float rounding", "anchors": ["src/frame.rs:Frame::convert"]}
{"id": "C22", "title": "Upmixing then downmixing is lossless", "statement": "Mono -> Stereo -> Mono, Mono -> Surround -> Mono and Stereo -> Surround -> Stereo return the original frame, also when the intermediate frame uses a wider channel format.", "quantifier": "every mono and stereo frame in every channel format", "why_tests_cant": "averaging two equal floats and re-quantising must be exact for every value", "anchors": ["src/frame.rs:Frame::convert"]}
{"id": "C23", "title": "Downmix averages and is symmetric", "statement": "Stereo -> Mono and Surround -> Mono give a sample between the (front) left and right samples and do not change when left and right are exchanged; Surround to Stereo/Mono ignores all other channels.", "quantifier": "every stereo and surround frame in every channel format", "why_tests_cant": "the value depends on two 64-bit floats", "anchors": ["src/frame.rs:Frame::convert"]}
{"id": "C24", "title": "Upmix layout", "statement": "Mono -> Stereo copies the sample to both channels; Mono/Stereo -> Surround puts left in slot 1 and right in slot 3 and leaves all other slots at MID.", "quantifier": "every mono and stereo frame in every pair of formats", "why_tests_cant": "must hold for every sample value and format", "anchors": ["src/frame.rs:Frame::convert"]}
{"id": "C25", "title": "convert never panics on built-in layouts and always panics on custom ones", "statement": "convert between any two of Mono, Stereo, Surround (any formats) returns; with a custom layout as source or target, even the same one, the default convert panics.", "quantifier": "every frame and every pair of layouts", "why_tests_cant": "open set of custom Frame types", "anchors": ["src/frame.rs:Frame::convert"]}
{"id": "C26", "title": "Blend operations have their documented meaning", "statement": "Src gives the source frame, Dest the destination, Clear the default frame, Plus the saturating sum, Amplify the product, channel by channel; Plus and Amplify do not depend on the order of operands; Compress always panics, as does Pan on a single channel.", "quantifier": "every pair of frames of every kind and format", "why_tests_cant": "every frame value; the combinators are generic over all frames", "anchors": ["src/ops.rs:Src", "src/ops.rs:Dest", "src/ops.rs:Clear", "src/ops.rs:Amplify", "src/ops.rs:Plus", "src/ops.rs:Compress", "src/ops.rs:Pan", "src/ops.rs:mix_frames"]}
{"id": "C27", "title": "Pan distributes each channel over the two speakers next to the pan position", "statement": "Pan sends each destination channel to the two speakers whose locations enclose the pan position, with weights cos and sin of a quarter circle, and writes no other channel.", "quantifier": "every frame, every pan position, every layout, any trigonometric implementation", "why_tests_cant": "continuous pan position; layouts are generic", "anchors": ["src/ops.rs:Pan::mix_frames", "src/mono.rs:CONFIG", "src/stereo.rs:CONFIG", "src/surround.rs:CONFIG"]}
{"id": "C28", "title": "Pan of a mono frame leaves it unchanged", "statement": "On a layout with a single speaker Pan has nowhere to pan to, so it returns the destination frame.", "quantifier": "every mono frame and pan position", "why_tests_cant": "the code divides by the distance between a speaker and itself", "anchors": ["src/ops.rs:Pan::mix_frames", "src/mono.rs:CONFIG"]}
{"id": "C29", "title": "A frame is an endless constant stream", "statement": "Iterating a frame used as a stream yields that same frame forever; it reports no length and no sample rate, and setting the rate changes nothing.", "quantifier": "every frame, every number of steps", "why_tests_cant": "infinite stream", "anchors": ["src/frame.rs:Stream for T", "src/mono.rs:Iterator", "src/stereo.rs:Iterator", "src/surround.rs:Iterator"]}
{"id": "C30", "title": "Stream length is exact", "statement": "When a stream built from audio buffers, drains, frames, take and blend reports length Some(n), iterating it yields exactly n frames; when it reports None it never ends; is_empty is true exactly when it yields nothing.", "quantifier": "every stream expression of any nesting depth", "why_tests_cant": "unbounded nesting; the sink trusts this number to size its buffers", "anchors": ["src/streaming.rs:Stream::len", "src/streaming.rs:TakeStream", "src/streaming.rs:BlendStream", "src/audio.rs:Stream for &Audio", "src/audio.rs:Stream for AudioDrain"]}
{"id": "C31", "title": "take keeps a prefix and take of take is min", "statement": "take(n) yields the first n frames of the stream (all if fewer) and take(n).take(m) behaves like take(min(n,m)); its rate is that of the inner stream.", "quantifier": "every stream, every n and m", "why_tests_cant": "unbounded n, m and streams", "anchors": ["src/streaming.rs:TakeStream"]}
{"id": "C32", "title": "blend yields the mix of the two streams, as long as the shorter", "statement": "The i-th frame of a.blend(b,op) is op applied to the i-th frame of a and the i-th frame of b converted to a's frame type.", "quantifier": "every pair of streams and each op", "why_tests_cant": "unbounded streams", "anchors": ["src/streaming.rs:BlendStream"]}
{"id": "C33", "title": "blend panics exactly on incompatible sample rates", "statement": "blend panics if and only if both streams report a rate and the rates differ (NaN included), or one reports none and cannot be configured; otherwise it returns a stream.", "quantifier": "every pair of streams", "why_tests_cant": "rates are arbitrary f64", "anchors": ["src/streaming.rs:Stream::blend", "src/streaming.rs:set_sample_rate"]}
{"id": "C34", "title": "A stream that blend accepted can be streamed into a sink", "statement": "If blend did not panic then streaming the result into any sink does not panic over sample rates, in either order of the operands.", "quantifier": "every accepted pair of streams and every sink", "why_tests_cant": "needs a configurable first operand and a fixed second one", "anchors": ["src/streaming.rs:BlendStream::set_sample_rate", "src/streaming.rs:Sink::stream"]}
{"id": "C35", "title": "Streaming at equal rates copies", "statement": "Streaming a finite stream into a fresh sink with the same sample rate (or a stream without rate) writes the i-th stream frame, converted, to slot i for every i below both lengths and leaves all later slots alone; samples in [-1,1] arrive with the same numeric value.", "quantifier": "every stream of any length, every buffer length, every pair of frame kinds and formats, every finite non-zero rate", "why_tests_cant": "unbounded lengths; relies on exactness of float index arithmetic at each step", "anchors": ["src/streaming.rs:Sink::stream", "src/audio.rs:AudioSink"]}
{"id": "C36", "title": "A sink never writes outside its region and never changes its length", "statement": "Sink::stream keeps the buffer length, touches no slot at or beyond the destination range (except that slot 0 receives the left-over partial frame), and Audio::sink(range) changes no frame outside the range.", "quantifier": "every stream, rate pair (NaN, infinite, negative or zero included), resampler state, buffer and range", "why_tests_cant": "all rates and states", "anchors": ["src/streaming.rs:Sink::stream", "src/audio.rs:Audio::sink"]}
{"id": "C37", "title": "Streaming a finite stream returns without panicking", "statement": "Sink::stream on a finite stream of built-in frames terminates and does not panic, for all sample rates, resampler states and buffer sizes.", "quantifier": "every finite stream, every f64 rate on both sides, every state", "why_tests_cant": "index arithmetic over all floats", "anchors": ["src/streaming.rs:Sink::stream", "src/math.rs:ceil_usize"]}
{"id": "C38", "title": "The sink takes no more frames than it uses", "statement": "Sink::stream calls next on the stream only for frames it then adds to the buffer; streaming a drain removes exactly these frames and keeps the others in order.", "quantifier": "every drain, stream and sink", "why_tests_cant": "depends on the order of the range check and next in the loop, for all lengths", "anchors": ["src/streaming.rs:Sink::stream", "src/audio.rs:AudioDrain", "src/audio.rs:Drop for AudioDrain"]}
{"id": "C39", "title": "Draining removes exactly the frames yielded", "statement": "After k frames were taken from drain() and the drain dropped, the buffer holds the original frames without the first min(k,len), in order, and the same sample rate; the frames yielded are those removed.", "quantifier": "every buffer and every k, any history of drains", "why_tests_cant": "unbounded histories", "anchors": ["src/audio.rs:Audio::drain", "src/audio.rs:AudioDrain", "src/audio.rs:Drop for AudioDrain"]}
{"id": "C40", "title": "Streaming several streams into one sink appends them", "statement": "A second Sink::stream call on the same sink continues after the audio written by the first and leaves it in place, as the resampler example relies on.", "quantifier": "every sequence of streams into one sink", "why_tests_cant": "histories of calls carrying resampler state", "anchors": ["src/streaming.rs:Sink::stream", "src/streaming.rs:Resampler", "examples/resampler.rs"]}
{"id": "C41", "title": "The left-over partial frame is carried into the next call", "statement": "Audio left over in the resampler by one Sink::stream call is added to the output of the next call (or written by flush) exactly once.", "quantifier": "every sequence of calls", "why_tests_cant": "state carried over histories", "anchors": ["src/streaming.rs:Sink::stream", "src/streaming.rs:Sink::flush", "src/streaming.rs:Resampler"]}
{"id": "C42", "title": "flush writes at most one slot and never panics", "statement": "flush writes the partial frame to the slot at the resampler index if the index has a fractional part and does nothing otherwise; it changes no other slot and does not panic.", "quantifier": "every sink state", "why_tests_cant": "index is an arbitrary f64", "anchors": ["src/streaming.rs:Sink::flush"]}
{"id": "C43", "title": "Resampled float audio stays in range", "statement": "After streaming anything into a sink of Ch32/Ch64 frames every slot of the destination range that was written is in [-1,1] and not NaN, for every rate.", "quantifier": "every stream (with arbitrary float samples), rate pair and state", "why_tests_cant": "weights may exceed one and samples may be NaN", "anchors": ["src/streaming.rs:Sink::stream", "src/chan.rs:AddAssign"]}
{"id": "C44", "title": "Silence in, silence out", "statement": "Streaming silent frames into a sink with the same channel format at any pair of finite positive rates gives silence in the destination range.", "quantifier": "every length, every finite rate pair, every frame kind", "why_tests_cant": "all rates", "anchors": ["src/streaming.rs:Sink::stream"]}
{"id": "C45", "title": "Constant signals stay constant when resampled", "statement": "Resampling a constant in-range signal gives the same constant (away from the edges), whatever the rates.", "quantifier": "every constant, every rate pair", "why_tests_cant": "all rate pairs", "anchors": ["src/streaming.rs:Sink::stream"]}
{"id": "C46", "title": "Each source frame contributes with total weight equal to the rate ratio", "statement": "In Sink::stream the two weights used for one source frame add up to the rate ratio and both lie between 0 and the ratio.", "quantifier": "every positive ratio, offset and frame index", "why_tests_cant": "float rounding at each step", "anchors": ["src/streaming.rs:Sink::stream"]}
{"id": "C47", "title": "Audio is a faithful frame list", "statement": "get, get_mut, iter, iter_mut, as_slice, len, is_empty, with_frame, with_silence, with_frames and conversion to Vec/Box<[F]> behave like the corresponding operations on a list of frames in order; get is None exactly from len on; the sample rate is the one given.", "quantifier": "every sequence of operations", "why_tests_cant": "unbounded histories", "anchors": ["src/audio.rs:Audio"]}
{"id": "C48", "title": "extend keeps what was there", "statement": "When extend returns, the first len() frames and the sample rate are unchanged, and len grows by ceil(rate * stream len / stream rate), or by the stream length if the stream has no rate.", "quantifier": "every buffer, finite stream and rate pair", "why_tests_cant": "all rates and lengths", "anchors": ["src/audio.rs:extend", "src/audio.rs:extend_internal", "src/math.rs:ceil"]}
{"id": "C49", "title": "Resampled length is the exact ceiling", "statement": "For whole-number sample rates with_stream gives exactly ceil(n * dst_rate / src_rate) frames, despite float rounding.", "quantifier": "all integer rates and lengths with n*dst_rate below 2^52", "why_tests_cant": "float division may round across an integer", "anchors": ["src/audio.rs:extend_internal", "src/math.rs:ceil"]}
{"id": "C50", "title": "Extending at equal rates appends the converted stream", "statement": "extend with a stream of the same rate or without rate appends exactly the stream's frames, converted; with_stream at equal rates is frame-by-frame conversion.", "quantifier": "every buffer and finite stream, every pair of frame types", "why_tests_cant": "unbounded lengths", "anchors": ["src/audio.rs:extend", "src/audio.rs:with_stream"]}
{"id": "C51", "title": "extend and with_stream do not panic on finite streams", "statement": "extend and with_stream with a finite stream of built-in frames and ordinary sample rates return without panicking.", "quantifier": "every finite stream and every pair of finite positive rates", "why_tests_cant": "needs two differently rounded computations of the same quotient to agree for every length", "anchors": ["src/audio.rs:extend_internal", "src/streaming.rs:Sink::flush"]}
{"id": "C52", "title": "extend is atomic when it panics", "statement": "extend on an infinite stream panics, and the buffer keeps its frames and rate when the panic is caught.", "quantifier": "every buffer and infinite stream; crash point inside extend", "why_tests_cant": "state after unwinding is not covered by ordinary tests", "anchors": ["src/audio.rs:extend", "std::mem::swap"]}
{"id": "C53", "title": "Raw sample buffers are interleaved frames", "statement": "with_i8/i16/f32/f64_buffer panics exactly if the sample count is not a multiple of the channel count; otherwise frame f channel c is sample f*channels+c, len is samples/channels, and as_*_slice returns the original samples.", "quantifier": "every buffer of every length, every layout", "why_tests_cant": "unbounded buffers", "anchors": ["src/audio.rs:with_i8_buffer", "src/audio.rs:with_i16_buffer", "src/audio.rs:with_f32_buffer", "src/audio.rs:with_f64_buffer", "src/audio.rs:as_i8_slice", "src/audio.rs:as_i16_slice", "src/audio.rs:as_f32_slice", "src/audio.rs:as_f64_slice"]}
{"id": "C54", "title": "Raw sample buffers own their memory exactly once", "statement": "Building Audio from a raw buffer and turning Audio into a raw boxed slice transfers ownership: the memory is not freed while the new owner lives and is freed once when it is dropped.", "quantifier": "every buffer and every order of drops", "why_tests_cant": "memory errors are silent in tests", "anchors": ["src/audio.rs:with_*_buffer", "src/audio.rs:From<Audio<F>> for Box<[i8]>/Box<[i16]>/Box<[f32]>/Box<[f64]>"]}
{"id": "C55", "title": "sink panics exactly on an out-of-range region", "statement": "Audio::sink(range) panics if and only if start > end or end > len; otherwise the sink's buffer is that slice and writes land in it in place.", "quantifier": "every buffer and range", "why_tests_cant": "all bounds", "anchors": ["src/audio.rs:Audio::sink"]}
{"id": "C56", "title": "Infinite streams fill the sink and stop", "statement": "Streaming an infinite stream that has no sample rate into a sink fills the whole buffer from the resampler offset and returns.", "quantifier": "every buffer length and frame", "why_tests_cant": "termination of an unbounded loop", "anchors": ["src/streaming.rs:Sink::stream", "src/frame.rs:Stream for T"]}
{"id": "C57", "title": "Streaming an infinite stream terminates for all rates", "statement": "Sink::stream on an infinite stream terminates for every pair of sample rates.", "quantifier": "every rate pair", "why_tests_cant": "non-termination cannot be observed by a test", "anchors": ["src/streaming.rs:Sink::stream"]}
{"id": "C58", "title": "Sink::stream is a weighted scatter-add", "statement": "Sink::stream takes frames while their position ratio*i+offset is inside the destination range; each slot of the range ends up as silence plus, in order, every taken frame times its weight for that slot; contributions beyond the range go to the left-over frame; the offset advances by ratio times the number of frames taken.", "quantifier": "every stream, buffer, rate pair and resampler state", "why_tests_cant": "complete input/output description", "anchors": ["src/streaming.rs:Sink::stream"]}
{"id": "C59", "title": "Downsampling is a box filter", "statement": "With a destination rate not above the source rate, each destination frame is the mean of the source signal over its time span, up to a stated rounding error, for every channel format.", "quantifier": "every signal in range, every ratio in (0,1], every length", "why_tests_cant": "accumulated rounding over arbitrarily long signals", "anchors": ["src/streaming.rs:Sink::stream"]}
{"id": "C60", "title": "Audio from raw float buffers is in range", "statement": "All samples of an Audio built by with_f32_buffer or with_f64_buffer are in [-1, 1].", "quantifier": "every buffer", "why_tests_cant": "all float bit patterns", "anchors": ["src/audio.rs:with_f32_buffer", "src/audio.rs:with_f64_buffer"]}
{"id": "C61", "title": "Streaming frame by frame equals streaming at once", "statement": "Streaming each frame of a buffer on its own, as a one-frame stream without a rate, into one sink (the loop of examples/resampler.rs) leaves the same buffer as streaming the whole buffer at the same rate.", "quantifier": "every frame list, buffer and format", "why_tests_cant": "depends on state carried between calls for an arbitrary number of calls", "anchors": ["src/streaming.rs:Sink::stream", "src/frame.rs:Stream for T", "examples/resampler.rs:main"]}
{"id": "C62", "title": "Neutral elements of channel arithmetic", "statement": "Silence is neutral for + and -, full volume is neutral for *, silence absorbs under *, x - x is silence and x / x is full volume for every sample that is not silence.", "quantifier": "every in-range sample of every format", "why_tests_cant": "2^64 samples for Ch64; rounding and asymmetric integer ranges break such laws at isolated values", "anchors": ["src/chan.rs:Add", "src/chan.rs:Sub", "src/chan.rs:Mul", "src/chan.rs:Div", "src/chan.rs:MID", "src/chan.rs:MAX"]}
{"id": "C63", "title": "Channel operators are monotone", "statement": "a <= b implies a + c <= b + c, a - c <= b - c, c - b <= c - a, -b <= -a, a * c <= b * c for c not below silence (reversed for c not above it); and a.lerp(b, t) moves monotonically from a towards b as t grows.", "quantifier": "every in-range sample of every format", "why_tests_cant": "triples of 64-bit samples", "anchors": ["src/chan.rs:Add", "src/chan.rs:Sub", "src/chan.rs:Mul", "src/chan.rs:Neg", "src/chan.rs:Channel::lerp"]}
{"id": "C64", "title": "lerp stays between its end points", "statement": "For a weight between MID and MAX, a.lerp(b, t) lies between a and b.", "quantifier": "every a, b and weight of every format", "why_tests_cant": "rounding overshoots only for rare operand triples", "anchors": ["src/chan.rs:Channel::lerp"]}
{"id": "C65", "title": "A product is never louder than its factors", "statement": "|a * b| <= |a| for every pair (hence <= |b| too, the product being commutative), and the sign of a product follows the sign rule (or the product is silence).", "quantifier": "every in-range pair of samples of every format", "why_tests_cant": "the only exception is one pair out of 2^16 (2^32)", "anchors": ["src/chan.rs:Mul"]}
{"id": "C66", "title": "Mixing order does not matter", "statement": "Adding any number of samples together in any order gives the same result.", "quantifier": "every list of samples and every permutation", "why_tests_cant": "arbitrary list lengths and permutations", "anchors": ["src/chan.rs:Add", "src/ops.rs:Plus"]}
{"id": "C67", "title": "Inverting and converting commute", "statement": "Negating a sample and then converting it to another format gives the same as converting first and negating after.", "quantifier": "every in-range sample and every pair of formats", "why_tests_cant": "16 format pairs times up to 2^64 samples", "anchors": ["src/chan.rs:Neg", "src/chan.rs:From conversions", "src/chan.rs:to_f64", "src/chan.rs:from_f64"]}
{"id": "C68", "title": "Division is the quotient of the levels", "statement": "The level of a / b is the clamped quotient of the levels of a and b, up to one step of the format.", "quantifier": "every in-range pair with a divisor other than silence, every format", "why_tests_cant": "2^32 pairs for Ch16, scale errors are systematic and the unit tests avoid them", "anchors": ["src/chan.rs:Div"]}
{"id": "C69", "title": "Arithmetic is real arithmetic on levels", "statement": "With level(x) the real number in [-1,1] a sample stands for, +, -, * and lerp give the clamped real result up to a fixed number of quantisation steps, and - (unary) is exact.", "quantifier": "every in-range pair/triple of samples of every format", "why_tests_cant": "error bound over all operands", "anchors": ["src/chan.rs:Add", "src/chan.rs:Sub", "src/chan.rs:Mul", "src/chan.rs:Neg", "src/chan.rs:Channel::lerp"]}
{"id": "C70", "title": "Comparison is a total order and Eq is lawful", "statement": "== is an equivalence relation and < a strict total order compatible with it, on every channel value; frames compare equal exactly if all channels do.", "quantifier": "every channel value of every format, including NaN", "why_tests_cant": "Eq is asserted by an empty impl; NaN is never tested", "anchors": ["src/chan.rs:PartialEq/PartialOrd derive", "src/chan.rs:Eq for Ch32/Ch64", "src/frame.rs:Frame"]}
{"id": "C71", "title": "Quantisation is idempotent", "statement": "Quantising a number to a format, reading it back as f64 and quantising again gives the same sample.", "quantifier": "every f64 in range, every format", "why_tests_cant": "2^64 inputs; floor of a rounded product can drift by one step", "anchors": ["src/chan.rs:to_f64", "src/chan.rs:from_f64"]}
{"id": "C72", "title": "Narrowing Ch16 to Ch8", "statement": "Ch16 to Ch8 is monotone, hits every Ch8 sample, maps exactly 256 consecutive Ch16 samples to each, and going back is off by at most 255.", "quantifier": "every Ch16 and Ch8 sample", "why_tests_cant": "exact preimage of every sample", "anchors": ["src/chan.rs:From<Ch16> for Ch8", "src/chan.rs:From<Ch8> for Ch16"]}
{"id": "C73", "title": "Both ways of converting agree to one step", "statement": "Converting between two formats with From and via to_f64/from_f64 gives results at most one quantisation step apart.", "quantifier": "every in-range sample and every pair of formats", "why_tests_cant": "16 pairs times up to 2^64 samples; the exact equality is false", "anchors": ["src/chan.rs:From conversions", "src/chan.rs:to_f64", "src/chan.rs:from_f64"]}
{"id": "C74", "title": "Chunked playback is gapless", "statement": "Draining one Audio into any number of sinks of the same rate, each started with a fresh resampler, in turn yields buffers whose concatenation is the prefix of the Audio, converted frame by frame, and leaves exactly the rest in the Audio.", "quantifier": "every buffer, every list of chunk sizes, every pair of formats", "why_tests_cant": "arbitrary number of chunks", "anchors": ["src/audio.rs:Audio::drain", "src/audio.rs:AudioDrain", "src/streaming.rs:Sink::stream"]}
{"id": "C75", "title": "Repeated extend concatenates", "statement": "Extending an Audio by several streams one after another appends their frames in order and leaves earlier frames as they were.", "quantifier": "every list of finite streams", "why_tests_cant": "arbitrary number of extensions and lengths", "anchors": ["src/audio.rs:Audio::extend", "src/streaming.rs:Sink::stream"]}
{"id": "C76", "title": "A resampler carried to the next buffer continues the stream", "statement": "Starting the next sink with the resampler context of the previous one, the streamed audio continues at the start of the new buffer.", "quantifier": "every stream longer than the buffer", "why_tests_cant": "state between calls", "anchors": ["src/streaming.rs:Resampler", "src/streaming.rs:Sink::stream"]}
{"id": "C77", "title": "Sink::stream copes with a wrong len", "statement": "A stream whose len does not match the frames it yields is streamed without panic.", "quantifier": "every reported length and every actual length", "why_tests_cant": "violates a trait contract that no test violates", "anchors": ["src/streaming.rs:Sink::stream", "src/streaming.rs:Stream::len"]}
{"id": "C78", "title": "Upsampling by a whole factor keeps frames and interpolates", "statement": "Streaming at N times the source rate puts source frame i at slot N*i and interpolated values between.", "quantifier": "every N, signal, length and format", "why_tests_cant": "arbitrary lengths and factors", "anchors": ["src/streaming.rs:Sink::stream", "src/math.rs:ceil_usize"]}
{"id": "C79", "title": "Algebra of take and blend", "statement": "Taking n frames of a blend is blending the takes; each blend operator acts frame by frame; blends by addition and multiplication commute.", "quantifier": "every pair of streams, operator and length", "why_tests_cant": "arbitrarily nested streams", "anchors": ["src/streaming.rs:TakeStream", "src/streaming.rs:BlendStream", "src/ops.rs:Blend"]}
{"id": "C80", "title": "A frame only affects the slots next to its position", "statement": "Changing one frame of a stream changes at most the two destination slots around its position (or the later one's share in the left-over frame), and never the position of the next stream.", "quantifier": "every stream, sink, ratio, offset and frame index, all formats", "why_tests_cant": "two runs on arbitrary inputs compared", "anchors": ["src/streaming.rs:Sink::stream"]}
{"id": "C81", "title": "Louder in, louder out", "statement": "If no sample of one stream is above the corresponding sample of another, no sample of the destination range is after streaming them.", "quantifier": "every pair of streams of one rate and length, ratio >= 0, all formats", "why_tests_cant": "needs every rounding and saturation step to be monotone", "anchors": ["src/streaming.rs:Sink::stream", "src/chan.rs:Add", "src/chan.rs:Mul"]}
{"id": "C82", "title": "Channels do not mix", "statement": "What ends up in a channel of the destination depends only on what the stream's frames convert to in that channel, not on other channels or the layout of the sink.", "quantifier": "every pair of sinks and streams", "why_tests_cant": "non-interference between two runs", "anchors": ["src/streaming.rs:Sink::stream", "src/frame.rs:Frame"]}
{"id": "C83", "title": "Inverting the stream inverts the result", "statement": "Negating every sample of a stream negates every sample of the destination range.", "quantifier": "every stream and format", "why_tests_cant": "symmetry of every rounding step", "anchors": ["src/streaming.rs:Sink::stream", "src/chan.rs:Neg"]}
{"id": "C84", "title": "The schedule does not depend on the audio", "statement": "How many frames are taken, which position the next stream starts at and how long the buffer is depend on rates and lengths only, not on samples, formats or layouts.", "quantifier": "every pair of streams and sinks", "why_tests_cant": "non-interference between runs with different types", "anchors": ["src/streaming.rs:Sink::stream"]}
{"id": "C85", "title": "Superposition", "statement": "Streaming a linear combination of two streams gives the linear combination of what streaming each of them gives.", "quantifier": "every pair of streams, every pair of factors", "why_tests_cant": "error bound over arbitrary lengths", "anchors": ["src/streaming.rs:Sink::stream"]}
{"id": "C86", "title": "Extending with a drain consumes the drained audio", "statement": "Audio::extend with an AudioDrain uses every frame of the drained audio, so that it is empty afterwards and all of it is heard.", "quantifier": "every pair of audios, rates and lengths", "why_tests_cant": "resampling decides how many frames the iterator yields", "anchors": ["src/audio.rs:Audio::extend", "src/audio.rs:AudioDrain", "src/streaming.rs:Sink::stream"]}
{"id": "C87", "title": "The documented example works", "statement": "The example of the crate documentation (8 bit mono at 44100 Hz to 16 bit stereo at 48000 Hz) does not panic for any 256 samples, yields 279 frames at 48000 Hz, and its two channels are equal.", "quantifier": "every content of the 256 frames; equal channels at every rate and length", "why_tests_cant": "the whole pipeline from with_stream to flush", "anchors": ["src/audio.rs:Audio::with_stream", "src/streaming.rs:Sink::stream", "src/frame.rs:Frame::convert"]}
{"id": "C88", "title": "Arithmetic before or after a conversion", "statement": "A conversion keeps the level of a sample up to the precision of the new format, so adding, subtracting, multiplying or negating before a conversion and after it give the same level up to the precision of the two formats.", "quantifier": "every pair of formats, every pair of samples", "why_tests_cant": "16 conversions compared with 4 operators, with saturation on either side", "anchors": ["src/chan.rs:From", "src/chan.rs:Add", "src/chan.rs:Sub", "src/chan.rs:Mul", "src/chan.rs:Neg"]}
{"id": "C89", "title": "Downsampling with Audio::with_stream averages", "statement": "Audio::with_stream to a lower rate fills every slot with the mean of the signal over the slot's time, and what is left over for the next stream is the mean over the following slot.", "quantifier": "every pair of whole rates, every length, format and layout", "why_tests_cant": "box filter with rounding errors, through allocation, streaming and flush", "anchors": ["src/audio.rs:Audio::with_stream", "src/audio.rs:Audio::extend", "src/streaming.rs:Sink::stream"]}
{"id": "C90", "title": "Operators with an operand of another format", "statement": "Adding, subtracting or multiplying by a sample of another format acts with the level of that sample, up to the precision of the left operand's format; dividing panics for no other pair than Ch16::MIN by a sample that converts to -1.", "quantifier": "every pair of formats, every pair of samples", "why_tests_cant": "generic operators R: Into<Self>, conversion error before saturation", "anchors": ["src/chan.rs:Add", "src/chan.rs:Sub", "src/chan.rs:Mul", "src/chan.rs:Div", "src/chan.rs:From"]}
{"id": "C91", "title": "A raw number as operand of a Ch32", "statement": "An f32 on the right of a Ch32 operator acts with its own value: the result is the exact result with that number, rounded and clamped.", "quantifier": "every sample and every f32", "why_tests_cant": "the operand is converted, and so clamped, before the operation", "anchors": ["src/chan.rs:Add", "src/chan.rs:Sub", "src/chan.rs:Mul", "src/chan.rs:Div", "src/chan.rs:From"]}
{"id": "C92", "title": "A panic loses no audio", "statement": "After a caught panic of Sink::stream or Audio::extend every frame of a drained audio is either still in it or in the destination, and the destination still has what it had.", "quantifier": "every sink or audio, every stream, every panic", "why_tests_cant": "state at unwinding: Drop of the drain, partly written destination, swapped-out buffer of extend", "anchors": ["src/streaming.rs:Sink::stream", "src/audio.rs:Audio::extend", "src/audio.rs:AudioDrain"]}
{"id": "C93", "title": "Panning has constant power and keeps the sign", "statement": "Panning a sample of level p into silent speakers gives two speakers levels a and b of the sign of p with a^2 + b^2 = p^2; in Stereo they are p times cosine and sine of an angle that grows linearly with the position.", "quantifier": "every format, every sample and position, every layout with speakers apart, all sine and cosine functions of given precision", "why_tests_cant": "trigonometric identity through float angle, conversion and saturation", "anchors": ["src/ops.rs:Pan::mix_frames", "src/stereo.rs:CONFIG", "src/surround.rs:CONFIG", "src/chan.rs:Mul", "src/chan.rs:Add"]}
{"id": "C94", "title": "The resampler example", "statement": "For every file of 16 bit stereo frames the two programs of examples/resampler.rs, converting the audio as a whole and frame by frame, finish and write the same samples.", "quantifier": "every content and length of the file", "why_tests_cant": "end to end: bytes, raw buffer, with_stream, loop of stream calls, raw samples", "anchors": ["examples/resampler.rs:main", "src/audio.rs:Audio::with_i16_buffer", "src/audio.rs:Audio::with_stream", "src/streaming.rs:Sink::stream"]}
{"id": "C95", "title": "Resampling stays between the lowest and highest value and keeps the sign", "statement": "Every slot that Sink::stream writes lies between the lowest and the highest sample of the channel (and silence); a channel without negative samples gets no negative ones, a channel without positive samples gets no positive ones.", "quantifier": "every ratio, length, content, format, layout", "why_tests_cant": "overshoot of a resampling filter, with rounding and saturation", "anchors": ["src/streaming.rs:Sink::stream"]}
{"id": "C96", "title": "Resampling scales the sum of the signal by the ratio", "statement": "The sum of the slots that Sink::stream writes and of the frame left over is the sum of the source frames times the ratio of the rates.", "quantifier": "every ratio, length, content, format, layout", "why_tests_cant": "conservation over all slots, with rounding and saturation", "anchors": ["src/streaming.rs:Sink::stream", "src/streaming.rs:Resampler"]}
{"id": "C97", "title": "Speakers are listed from left to right, mirrored, without the LFE", "statement": "The CONFIG of Mono is [0], of Stereo [-1/2, 1/2], of Surround [-2/3, -1/3, 0, 1/3, 2/3], each rounded to f64: in increasing order, mirror images of one another, within (-1, 1), one per channel but the LFE.", "quantifier": "all three layouts, every index", "why_tests_cant": "constants that pan relies on, pinned to their values and to the documented order", "anchors": ["src/mono.rs:Mono::CONFIG", "src/stereo.rs:Stereo::CONFIG", "src/surround.rs:Surround::CONFIG"]}
{"id": "C98", "title": "The channels of Surround are in the documented order", "statement": "The channels of Surround are front left, rear left, rear right, front right, center and LFE in this order: each has the position of its speaker in CONFIG, and a stereo frame converts to one heard from the front speakers only.", "quantifier": "every stereo and surround frame, all formats", "why_tests_cant": "two orders in the comments; only one agrees with the code", "anchors": ["src/surround.rs:Surround", "src/frame.rs:Frame::convert"]}
{"id": "C99", "title": "Frame constructors put every argument into its channel at its level", "statement": "Mono::new, Stereo::new and Surround::new convert argument i into channel i, within three units of the format of the level the argument stands for; samples of the same format and raw integers arrive unchanged, raw f32 are clamped; from_channels agrees with new.", "quantifier": "every argument of every type that converts to the format, all formats, all three layouts", "why_tests_cant": "constructors are generic over the argument type", "anchors": ["src/mono.rs:Mono::new", "src/stereo.rs:Stereo::new", "src/surround.rs:Surround::new", "src/chan.rs:From"]}
{"id": "C100", "title": "AudioStream gives the frames of its range", "statement": "The iterator of the private AudioStream, with its cursor at or after the start of its range, gives the frames of the range from the cursor on, one per call, then None for good, and never panics.", "quantifier": "every audio, range, cursor and number of calls", "why_tests_cant": "iterator protocol with a range check and a bounds check", "anchors": ["src/audio.rs:AudioStream"]}
{"id": "C101", "title": "What every slot gets when upsampling at any ratio", "statement": "At a ratio r of at least 1, into a fresh sink, slot x of the destination range gets the clamped sum over the frames of their value times their share: the frame with its position in slot x counts with r less the fraction of its position (at most 1 in the integer formats), the one with its position in slot x-1 with the fraction. No two frames have their position in the same slot, a slot that no frame reaches is silent, and a constant signal at a ratio from 1 to 2 arrives with 2-r to r times its amplitude (at most once in the integer formats).", "quantifier": "every channel format, layout, ratio 1 <= r <= 2^20, finite or infinite stream, values in [-1, 1], buffer of at most 2^52 slots", "why_tests_cant": "positions and weights are rounded, the integer formats clamp the weight, hiSlot may fall back to the same slot", "anchors": ["src/streaming.rs:Sink::stream", "src/streaming.rs:Resampler"]}
{"id": "C102", "title": "Upsampling and back gives the signal back", "statement": "Audio streamed into a fresh sink of N times its rate and from there into a fresh sink of its own rate comes back unchanged.", "quantifier": "every channel format, built-in layout, N = 2^m with m <= 24, frames in range, buffers of at most 2^52 slots", "why_tests_cant": "upsampling leaves silence between the frames and multiplies float samples by N; downsampling averages", "anchors": ["src/streaming.rs:Sink::stream", "src/streaming.rs:Resampler"]}
{"id": "C103", "title": "Debug and release builds behave alike", "statement": "Without overflow checks every function gives the same result, or panics where it panics with them.", "quantifier": "every operand; audio and streams of at most usize::MAX frames; every frame type, also custom ones", "why_tests_cant": "integer overflow panics in debug builds and wraps in release builds; extend adds a length that can be usize::MAX", "anchors": ["src/chan.rs:Mul for Ch8", "src/chan.rs:Neg for Ch8", "src/math.rs:ceil_usize", "src/ops.rs:Pan::mix_frames", "src/audio.rs:Audio::extend_internal"]}
{"id": "C104", "title": "Contents of audio that is made from a stream of a lower rate", "statement": "Audio made with with_stream at a whole rate dst from l frames at a whole rate src <= dst has ceil(dst*l/src) slots, and every one of them, the last one included, holds the clamped sum over all l frames of their value times their share (as in C101). No frame is lost and no slot stays unfilled: what stream leaves over is exactly what flush puts in the last slot.", "quantifier": "every channel format, layout and stream of known length; whole rates src <= 2^50, src <= dst <= 2^51 and dst <= 2^20 src; dst*l < 2^51; values in [-1, 1]", "why_tests_cant": "the length, the end of the destination range and the index that flush writes to are three separate roundings; in the other direction (C89) the last frames can be lost", "anchors": ["src/audio.rs:Audio::with_stream", "src/audio.rs:Audio::extend_internal", "src/streaming.rs:Sink::stream", "src/streaming.rs:Sink::flush"]}
{"id": "C105", "title": "Upsampling quiet signals is linear", "statement": "At a ratio r of at least 1, into a fresh sink: no slot is louder than r times the loudest frame; if r + 1 times every value is at most 1, so that nothing clips, then streaming a A + b B gives a times the result of A plus b times the result of B up to the error of each run, and the sum over all slots and the left-over frame is r times the sum of the signal in the float formats (in the integer formats each frame counts with the weight of its slot cut off at 1, plus its fraction).", "quantifier": "every channel format, layout, ratio 1 <= r <= 2^20, finite or infinite stream, buffer of at most 2^51 slots", "why_tests_cant": "the shares of two frames meet in one slot; whether they add up to more than r depends on how positions round", "anchors": ["src/streaming.rs:Sink::stream", "src/streaming.rs:Resampler"]}
{"id": "C106", "title": "Changing the layout before or after resampling", "statement": "If no channels are averaged (mono or stereo to more channels, surround to stereo), extending audio of the wanted layout appends exactly the frames that extending audio of an intermediate layout appends, converted to the wanted layout afterwards; both return or both panic.", "quantifier": "every stream, channel format, pair of sample rates with a ratio up to 2^99, contents of the audio and the three layouts", "why_tests_cant": "compares two runs over all streams and rates", "anchors": ["src/audio.rs:extend", "src/frame.rs:convert", "src/streaming.rs:Sink::stream"]}
{"id": "C107", "title": "Changing the format of audio and back", "statement": "Audio converted with with_stream at its own rate to a channel format at least as wide and a layout with at least as many channels, and converted back, has the same rate, length and samples (float samples: the same value if in [-1, 1], otherwise clamped); both calls return.", "quantifier": "every audio of less than 2^51 frames, every pair of formats and layouts, every rate whose product with the length is exact (all whole rates in use)", "why_tests_cant": "all samples, formats and lengths", "anchors": ["src/audio.rs:with_stream", "src/frame.rs:convert", "src/chan.rs:Channel"]}
{"id": "C108", "title": "Mixing before or after resampling", "statement": "Resampling the sum of two streams of one rate and length gives the sum of the resampled streams, up to rounding, as long as nothing clips.", "quantifier": "every pair of streams of the layout and format of the audio, every pair of whole rates; downsampling: the sum is in range; upsampling by r: r + 1 times the samples and their sum is in range", "why_tests_cant": "all signals, lengths and rates", "anchors": ["src/audio.rs:with_stream", "src/streaming.rs:blend", "src/streaming.rs:Sink::stream"]}
{"id": "C109", "title": "The laws of resampling for extend", "statement": "Extending audio appends a number of frames that depends on the rates and the length only; channels do not mix; louder streams append louder frames; inverting the stream inverts the appended frames (float formats); a silent stream appends silence.", "quantifier": "every stream, audio, contents already there, pair of sample rates with a ratio up to 2^99 (any rates for the length and the channels), every layout and format", "why_tests_cant": "compares runs over all streams and rates", "anchors": ["src/audio.rs:extend", "src/streaming.rs:Sink::stream", "src/streaming.rs:flush"]}
{"id": "C110", "title": "The context of the resampler can be saved and restored", "statement": "Resampler::new(r.frame(), r.index()) is r: a sink that is given it streams and flushes as before. After a stream, index() is the old index plus the ratio times the number of frames taken and frame() is the old frame plus what fell behind the destination range; after an endless stream into a fresh sink index() is not before the end of the buffer and less than one source frame behind it.", "quantifier": "every sink, stream, layout, format and sample rates (for the range of index(): ratio up to 2^20, buffers up to 2^52 frames)", "why_tests_cant": "relates the accessors to the state after runs over all streams", "anchors": ["src/streaming.rs:Resampler", "src/streaming.rs:Sink::stream", "src/streaming.rs:flush"]}
{"id": "C111", "title": "The frames of an Audio are always in one piece", "statement": "Whatever is done with an Audio (get_mut, iter_mut, as_slice, sink, drain, extend, in any order), the ring buffer under it never wraps around: as_slice returns all frames without moving any, even after drain; drain moves none either; and the ring buffer has the same contents as the list of frames that every other claim is about, with no read of uninitialised memory.", "quantifier": "every history of operations of any length, every buffer, stream, layout, format and sample rate", "why_tests_cant": "an invariant over all histories of a data structure", "anchors": ["src/audio.rs:as_slice", "src/audio.rs:drain", "src/audio.rs:extend", "src/audio.rs:Drop for AudioDrain", "src/audio.rs:From<Audio<F>> for Vec<F>"]}
{"id": "C112", "title": "Sinks, streams and frames defined by the user", "statement": "Sink::stream depends on the sink, the stream and the frame types through the methods of their traits only. For a user-defined sink that returns its rate, its resampler and its buffer, stream and flush do the same as for the sinks of the crate. For frames with any arithmetic of their own and sinks with any contents in their buffer, as long as the number of slots is fixed: finite streams are streamed without panic, and the frames taken and the final index are the same as for the types of the crate.", "quantifier": "every implementation of the three traits: any frame type, arithmetic, conversion, sink state, and stream", "why_tests_cant": "parametricity over user code: a simulation between any two implementations", "anchors": ["src/streaming.rs:trait Sink", "src/streaming.rs:fn stream", "src/streaming.rs:fn flush", "src/streaming.rs:trait Stream", "src/frame.rs:trait Frame"]}
{"id": "C113", "title": "Raw sample buffers are memory safe for every frame type", "statement": "with_i8_buffer, with_i16_buffer, with_f32_buffer and with_f64_buffer have no undefined behaviour for any type that implements Frame, and neither has viewing the frames as samples.", "quantifier": "every frame type (any size, alignment, padding and set of valid bytes), every buffer of samples, every state of the heap", "why_tests_cant": "undefined behaviour is not observable by tests, and the type is user-defined", "anchors": ["src/audio.rs:with_i8_buffer", "src/audio.rs:with_i16_buffer", "src/audio.rs:with_f32_buffer", "src/audio.rs:with_f64_buffer", "src/audio.rs:as_i8_slice", "src/frame.rs:trait Frame"]}
{"id": "C114", "title": "Resampling is shift invariant", "statement": "Delaying a signal by a number of source frames that correspond to a whole number of slots delays the resampled signal by those slots and changes nothing else.", "quantifier": "every ratio, every delay, every signal, stream kind, frame type and format, every buffer", "why_tests_cant": "every position is a rounded product; tests start at position 0", "anchors": ["src/streaming.rs:Sink::stream"]}
{"id": "C115", "title": "User-defined blend operations act channel by channel", "statement": "With the provided mix_frames, an operation that a user defines by its mix alone applies mix to each pair of channels and panics exactly if mix panics for one of them; blending two streams with it mixes them sample by sample. The operations of the library except Pan are of this kind, Pan is not.", "quantifier": "every function mix, every frame type and format, all frames, all streams", "why_tests_cant": "mix is an arbitrary function supplied from outside the crate", "anchors": ["src/ops.rs:Blend::mix_frames"]}
{"id": "C116", "title": "Mono is the mean of left and right", "statement": "Converting a Stereo or Surround frame with in-range samples to Mono gives the mean of the (front) left and right channels up to half a step of the new format and rounding; in Ch8 and Ch16, without changing the format, it is the exact mean if that is a sample and one of its two neighbours otherwise.", "quantifier": "all in-range samples of every pair of formats, any values of the other channels of Surround", "why_tests_cant": "2^32 pairs of Ch16 samples and far more of floats", "anchors": ["src/frame.rs:Frame::convert", "src/chan.rs:Channel::from_f64"]}
{"id": "C117", "title": "Resampling in two steps equals resampling at once", "statement": "Streaming into a sink of a lower (or higher) rate, and the result into a sink of a still lower (or still higher) rate, gives the same slots as streaming into a sink of the last rate at once.", "quantifier": "all streams of in-range samples, all layouts and formats, all pairs of ratios up to 1 and all pairs from 1 up, all slots", "why_tests_cant": "Streams of every length and all pairs of rates; both results are rounded differently", "anchors": ["src/streaming.rs:Sink::stream"]}
{"id": "C118", "title": "Drains inside taken and blended streams lose exactly the frames that were taken", "statement": "After streaming any nesting of taken and blended streams, every buffer drained inside it lacks exactly as many frames at its front as were taken from the stream.", "quantifier": "all sinks, all nestings of take and blend, all buffers, layouts, formats and rates", "why_tests_cant": "Streams nest without bound; buffers of every length; the number of frames depends on rates and lengths", "anchors": ["src/streaming.rs:Sink::stream", "src/audio.rs:Drop for AudioDrain"]}
{"id": "C119", "title": "The loop counter of Sink::stream does not overflow", "statement": "Counting the frames of a stream in a usize never overflows, so debug and release builds both do what the loop says.", "quantifier": "all sinks, all streams, finite and endless, all rates, any number of iterations, both kinds of build", "why_tests_cant": "Overflow happens after 2^64 frames, far beyond any test", "anchors": ["src/streaming.rs:Sink::stream"]}
{"id": "C120", "title": "A stream that has ended stays ended", "statement": "After a stream returned None, every further call of next returns None, does not panic, and has no effect.", "quantifier": "all nestings of take and blend of all streams, any number of further calls", "why_tests_cant": "Streams nest without bound, and callers may ask again any number of times", "anchors": ["src/streaming.rs:TakeStream", "src/streaming.rs:BlendStream", "src/audio.rs:AudioDrain"]}
{"id": "C121", "title": "Targets with a 32-bit usize behave like those with 64 bits", "statement": "On a target with a usize of W bits, streaming and extending give the same results and panic in the same cases as on 64 bits, as long as buffers and streams fit.", "quantifier": "all widths up to 64, all sinks, streams, layouts, formats and rates, both builds", "why_tests_cant": "All widths, buffers and streams, with positions beyond any bound", "anchors": ["src/math.rs:ceil_usize", "src/streaming.rs:stream", "src/streaming.rs:flush", "src/audio.rs:extend_internal"]}
{"id": "C122", "title": "The arithmetic of the float channels is that of IEEE 754", "statement": "The operations on f32 and f64 that the crate uses give the exact result rounded to nearest, ties to even, with the infinities, NaN, signs of zero and comparisons that IEEE 754 prescribes, on exactly the values stored in 32 and 64 bits.", "quantifier": "all operands of both formats, finite or not, and all exact results", "why_tests_cant": "All rationals, all floats, all bit patterns", "anchors": ["src/chan.rs:Channel", "src/math.rs:ceil_usize", "src/streaming.rs:stream"]}
{"id": "C123", "title": "The integers are those of the Rust reference", "statement": "Checked, saturating and dividing arithmetic, min, max, casts and shifts of the integer channels act on the numbers that the bits make in two's complement: exact results where they fit, panics or the nearest number where they do not.", "quantifier": "all widths and all operands", "why_tests_cant": "All pairs of 32-bit intermediates", "anchors": ["src/chan.rs:Mul for Ch8", "src/chan.rs:Div for Ch16", "src/chan.rs:From<Ch16> for Ch8", "src/chan.rs:Neg for Ch8"]}
{"id": "C124", "title": "Extending buffers of frames of any type", "statement": "With any implementation of Frame and Stream, a call of extend that returns keeps the rate and the frames that were there and adds the documented number of frames; what the arithmetic of the frames preserves holds for the new ones; a call that panics leaves an empty buffer of rate 0.", "quantifier": "all implementations of Frame and Stream, all buffers", "why_tests_cant": "Trait implementations unconstrained", "anchors": ["src/audio.rs:Audio::extend", "src/audio.rs:Audio::extend_internal", "src/audio.rs:AudioSink", "src/streaming.rs:Sink::stream", "src/streaming.rs:Sink::flush"]}
{"id": "C125", "title": "Drains that are never dropped", "statement": "However many frames were taken through a drain, alone, inside Take or Blend or played into a sink, if it is leaked (core::mem::forget) every drained buffer still has all of its frames; if it is dropped, the buffer has lost frames from the front only.", "quantifier": "all streams, all numbers of frames taken", "why_tests_cant": "Number of frames unbounded", "anchors": ["src/audio.rs:Audio::drain", "src/audio.rs:Drop for AudioDrain", "src/audio.rs:AudioDrain"]}
{"id": "C126", "title": "Take and blend of streams of any type", "statement": "take and blend wrap any implementation of Stream: take(n) gives the frames of the first n calls of next and makes no further call; blend gives the mixed frames as long as both streams last; wrapped streams that keep their word give streams that do; blend panics exactly on rates that differ or when set_sample_rate of the stream without rate panics.", "quantifier": "all implementations of Stream, all numbers of frames", "why_tests_cant": "Trait implementations unconstrained", "anchors": ["src/streaming.rs:Stream::take", "src/streaming.rs:Stream::blend", "src/streaming.rs:TakeStream", "src/streaming.rs:BlendStream"]}
{"id": "C127", "title": "Implementations that share state", "statement": "The implementations behind a call of stream or flush may share state, read it and write it in every method. If, while that state keeps to an invariant, they relate to implementations without shared state, so do the results; a sink with a fixed number of slots streams a finite stream that keeps its word without panic, and the frames taken do not depend on the state. The calls of stream, in order, depend only on the rates, the lengths and the index.", "quantifier": "all types of shared state, all implementations of Frame, Sink and Stream", "why_tests_cant": "Trait implementations unconstrained", "anchors": ["src/streaming.rs:Sink::stream", "src/streaming.rs:Sink::flush"]}
{"id": "C128", "title": "Adaptors and buffers of implementations that share state", "statement": "take, blend and extend with implementations that share state: take(n) makes the first n calls of next and no other; streams that relate to streams without shared state still do after take and blend, and so does the buffer after extend; extend keeps the rate and the old frames, and the number of new frames follows from the length and rate that the stream first reports; the new frames are made by the arithmetic of the frames; after a panic the buffer is empty; the state has no influence on the panics of extend itself.", "quantifier": "all types of shared state, all implementations of Frame and Stream", "why_tests_cant": "Trait implementations unconstrained", "anchors": ["src/audio.rs:Audio::extend", "src/streaming.rs:Stream::take", "src/streaming.rs:Stream::blend"]}
{"id": "C129", "title": "Audio can be converted between the usual sample rates", "statement": "For any two of the usual sample rates (8000, 11025, 16000, 22050, 32000, 44100, 48000, 88200, 96000, 176400, 192000 Hz), extend and with_stream append a stream of any length at the one rate to a buffer of the other without panic.", "quantifier": "all pairs of usual rates, all stream lengths, all formats", "why_tests_cant": "110 pairs of rates times every length; the panics are at sparse lengths that depend on how two quotients round", "anchors": ["src/audio.rs:Audio::extend", "src/streaming.rs:Sink::stream"]}
{"id": "C130", "title": "Extending appends what with_stream makes, whatever was there", "statement": "a.extend(stream) leaves the frames of a followed by exactly the frames of Audio::with_stream(a.rate, stream), and panics where that panics (memory aside). So n calls of extend append n pieces, each resampled by itself. With n streams of one rate that differs from the rate of the buffer, this gives at most n - 1 frames more than one stream of the total length.", "quantifier": "all buffers, streams, formats and layouts; the number of extra frames for whole rates", "why_tests_cant": "two runs compared for all old contents, streams and rates; state of the old audio could leak into the new frames", "anchors": ["src/audio.rs:Audio::extend", "src/audio.rs:Audio::with_stream"]}
{"id": "C131", "title": "Resampling keeps time", "statement": "When a stream of whole rate src is played into a sink of whole rate dst, frame i goes to the two slots around i*dst/src, shared between them by the fraction of that position. The position used differs from the exact one by two roundings only, whatever i is: the difference does not add up over the stream, and between the usual rates it stays below 1/500000 of a frame for 12 hours. A frame has no effect on slots more than one slot away from its exact position.", "quantifier": "all whole rates up to 2^50, all frames with dst*i up to 2^50, all formats, layouts and streams", "why_tests_cant": "rounding errors grow with the position; they would show only after hours of audio", "anchors": ["src/streaming.rs:Sink::stream", "src/streaming.rs:Resampler"]}
{"id": "C132", "title": "Changing the format before, while or after resampling", "statement": "Extending a buffer with a stream of another format or layout gives the same samples as first converting the stream to the format and layout of the buffer at its own rate and then extending the buffer with the result; either both panic or neither. The samples must be in range: otherwise converting first clamps them. Resampling first and converting afterwards gives the same up to the errors of the two formats, and not exactly.", "quantifier": "all formats, layouts and finite streams whose rate times length is exact; for converting afterwards ratios up to 1, or up to 2^20 between two integer or two float formats", "why_tests_cant": "Three orders of two lossy operations, over all streams and rates", "anchors": ["src/audio.rs:Audio::extend", "src/audio.rs:Audio::with_stream", "src/frame.rs:Frame::convert", "src/streaming.rs:Sink::stream"]}
{"id": "C133", "title": "Small changes of a stream make small changes of the result", "statement": "Two streams of the same rate and length that differ by at most d give slots that differ by at most d when the rate does not go up (only the frames played during the slot count), and by at most d times the ratio when it goes up, both up to the accuracy of the slots. When the rate does not go up, the sum of the differences is at most the ratio times the sum of the differences of the streams, and the power of the result is at most the ratio times the power of the stream.", "quantifier": "all streams of any format and layout, ratios up to 2^20", "why_tests_cant": "All pairs of signals; a single wrong weight can break it far from the changed frame", "anchors": ["src/streaming.rs:Sink::stream"]}
{"id": "C134", "title": "Sinks of parts of a buffer", "statement": "Playing into the sink of a region is playing into a buffer that consists of this region only, put back in its place: the frames around the region have no influence, not even on panics. So for regions that do not overlap the order does not matter.", "quantifier": "all buffers, regions, formats and layouts, all sequences of stream and flush", "why_tests_cant": "Unbounded sequences of calls on all pairs of regions", "anchors": ["src/audio.rs:Audio::sink", "src/audio.rs:AudioSink", "src/streaming.rs:Sink::stream", "src/streaming.rs:Sink::flush"]}
{"id": "C135", "title": "Changing the layout in two steps", "statement": "Converting a frame to another layout by way of a third one gives what converting it at once gives, if and only if the layout on the way has at least as many channels as the smaller of the two others: so Mono to Surround is Mono to Stereo to Surround and Surround to Mono is Surround to Stereo to Mono, as the comments say. Converting to fewer channels and back is the same when done twice.", "quantifier": "all triples of built-in layouts, all in-range frames of all formats", "why_tests_cant": "27 triples of layouts times all frames", "anchors": ["src/frame.rs:Frame::convert"]}
{"id": "C136", "title": "The beginning of the result depends on the beginning of the stream only", "statement": "If two streams of one rate agree in their first m frames, whatever follows and however long they are, then what a sink, with_stream or extend make of them is the same in all slots before the position of frame m. In particular the first m frames alone (Stream::take) give the beginning of what the whole stream gives.", "quantifier": "every pair of streams, every m, ratio, offset, length, format and layout", "why_tests_cant": "two runs on streams of different lengths, for arbitrary frames and ratios", "anchors": ["src/streaming.rs:Sink::stream", "src/streaming.rs:Sink::flush", "src/audio.rs:Audio::with_stream", "src/audio.rs:Audio::extend"]}
{"id": "C137", "title": "Left and right are treated alike", "statement": "Exchanging the left and the right channels of everything that goes in exchanges them in what comes out, and changes nothing else: frame arithmetic, conversion between all layouts and formats, blending, streaming into a sink, flush, extend and with_stream.", "quantifier": "every frame, stream, sink and audio of every layout and format, also with several nested blends and takes", "why_tests_cant": "a symmetry of the whole pipeline, for arbitrary streams, by induction over stream expressions and the loop of Sink::stream", "anchors": ["src/frame.rs:Frame::convert", "src/streaming.rs:Sink::stream", "src/streaming.rs:Sink::flush", "src/audio.rs:Audio::extend", "src/audio.rs:Audio::with_stream", "src/streaming.rs:Stream::blend", "src/ops.rs:Blend::mix_frames"]}
{"id": "C138", "title": "Periodic signals keep their pitch", "statement": "If the frames of a stream repeat themselves after P frames, and P frames last a whole number X of destination frames, then the result repeats itself after X slots.", "quantifier": "every periodic stream of any length, every ratio, format and layout, all pairs of slots that are a period apart", "why_tests_cant": "for periods, lengths and frames of any size; the weights of frames that are millions of frames apart have to agree bit for bit", "anchors": ["src/streaming.rs:Sink::stream", "src/audio.rs:Audio::with_stream"]}
{"id": "C139", "title": "Resampling in pieces", "statement": "Cutting a signal into two pieces, the first of which lasts a whole number of slots, and streaming (with_stream, or extend twice) the pieces one after the other gives the same audio as streaming the whole signal.", "quantifier": "for all streams, frame kinds and channel formats, rates whose ratio is a/2^m (exact), all ratios (with error bounds), cut positions", "why_tests_cant": "all signals, cuts and rates; differences are in single slots at the seams", "anchors": ["src/audio.rs:Audio::extend", "src/audio.rs:Audio::with_stream", "src/streaming.rs:Sink::stream", "src/streaming.rs:Sink::flush"]}
{"id": "C140", "title": "Volume before or after resampling", "statement": "Amplifying a stream by a constant frame and then resampling it gives, up to a few rounding steps, the same as resampling the stream and then amplifying the result by that frame: the lengths agree and each sample differs by at most an explicit bound.", "quantifier": "for all built-in frame kinds, channel formats, whole sample rates, streams (quiet enough when upsampling), gains of magnitude up to 1", "why_tests_cant": "two lossy operations in both orders, over all streams, rates and volumes", "anchors": ["src/audio.rs:Audio::with_stream", "src/ops.rs:Amplify", "src/streaming.rs:Sink::stream"]}
{"id": "C141", "title": "Downsampling takes fast oscillations away", "statement": "If no run of consecutive samples of a stream sums up to more than S, no sample of the downsampled signal exceeds r*S (r < 1 the ratio of the rates), up to an explicit rounding error. If any N samples in a row sum up to 0, downsampling by the factor N gives silence, up to such an error and apart from the first slot.", "quantifier": "for all streams, frame kinds, channel formats, ratios up to 1, buffer lengths; whole factors for cancellation", "why_tests_cant": "all signals that change sign, of every frequency and length; tests try few tones", "anchors": ["src/streaming.rs:Sink::stream", "src/audio.rs:Audio::with_stream"]}
{"id": "C142", "title": "A stream played backwards gives the result backwards", "statement": "When the rate does not go up, and all frames of a stream but two last a whole number R of slots, then the stream played backwards gives the slots backwards: slot R + 1 - x of the one holds what slot x of the other holds, up to an explicit rounding error. When the rate is multiplied by a whole number N, the slots of a stream of l frames come backwards exactly (in-range samples): slot N*(l - 1) - x for slot x.", "quantifier": "for all streams, frame kinds and channel formats; all ratios up to 1 and all whole ratios; all pairs of slots that both streams write to", "why_tests_cant": "A symmetry of the whole resampler, in time, that the code is not written in: it goes through the frames in one direction and splits each between two slots", "anchors": ["src/streaming.rs:Sink::stream", "src/audio.rs:Audio::with_stream"]}
{"id": "C143", "title": "Panning before or after resampling", "statement": "Making an Audio of another rate from a stream that is panned to a fixed position gives the same audio, up to small rounding errors, as panning the Audio made from the stream. The same holds for every other effect whose channels are sums of the channels of the frame, each with a volume of at most 1.", "quantifier": "for all whole rates, all formats, stereo and surround, all positions, all streams, all trigonometric functions that give numbers in [-1, 1]", "why_tests_cant": "two lossy operations in both orders, over all streams, rates and positions, with trigonometric functions that depend on the platform", "anchors": ["src/ops.rs:Pan::mix_frames", "src/streaming.rs:Sink::stream", "src/audio.rs:Audio::with_stream", "src/streaming.rs:Stream::blend"]}
{"id": "C144", "title": "Volume and mixing combine as in arithmetic", "statement": "Changing the volume of a sample or a stream twice is changing it once by the product of the volumes, up to one step of an integer format or four units in the last place of a float format. Changing the volume of a mix that does not clip is mixing the samples or streams with their volumes changed, up to two steps or five units. Mixing three samples or streams in either grouping gives the same, exactly or up to four units, if no two of them clip, or if they are on the same side of zero.", "quantifier": "for all samples and frames (the loudest negative ones too) of every format and layout; for all streams, with volumes that may change from frame to frame", "why_tests_cant": "2^24 triples of Ch8, 2^48 of Ch16 and up to 2^192 of Ch64, with separate cases for the loudest negative sample; streams of any length", "anchors": ["src/chan.rs:Ch8::mul", "src/chan.rs:Ch16::mul", "src/chan.rs:Ch32::mul", "src/chan.rs:Add", "src/ops.rs:Amplify", "src/ops.rs:Plus", "src/streaming.rs:BlendStream"]}
{"id": "C145", "title": "A changing volume before or after resampling", "statement": "Streaming a sound whose volume is changed frame by frame (blended with a stream of volumes by Amplify) into a sink of another rate gives what streaming the sound and the volumes separately and multiplying the results gives, up to how much the volume changes during a slot and small rounding errors.", "quantifier": "for all rates, formats and built-in layouts, all sounds and all streams of volumes, all sinks of any length", "why_tests_cant": "The error depends on how the volumes vary around each slot, for all volume curves and all ratios of the rates; a test sees one curve at one ratio, and a rounding error of a few units looks the same as a wrong weight of one frame in a level passage.", "anchors": ["src/ops.rs:Amplify", "src/streaming.rs:Sink::stream", "src/streaming.rs:Stream::blend", "src/chan.rs:Ch8::mul", "src/chan.rs:Ch16::mul", "src/chan.rs:Ch32::mul"]}
{"id": "C146", "title": "Resampling to a lower rate does not raise the power", "statement": "The mean of the squares of the samples of a channel is not higher after resampling than before: the sum of the squares of the slots is at most the ratio of the rates times the sum of the squares of the frames, up to small rounding errors.", "quantifier": "for all ratios, formats, layouts, streams of any length and any contents, sinks and Audio::with_stream", "why_tests_cant": "A bound on a quadratic mean over signals of any length; the signals that come close to the bound (level ones) differ from those that tests usually contain, and any test set leaves out signals with other phases relative to the slots.", "anchors": ["src/streaming.rs:Sink::stream", "src/audio.rs:Audio::with_stream"]}
{"id": "C147", "title": "Rising signals stay rising", "statement": "If the samples of a channel rise from frame to frame, then so do the slots of the resampled signal, up to small rounding errors; the same for signals that fall. Signals that change slowly from frame to frame change slowly from slot to slot.", "quantifier": "for all ratios, formats, layouts, all streams and all pairs of slots; it suffices that the signal rises around the slots in question", "why_tests_cant": "The slots are rounded sums with rounded weights, and which frames belong to a slot depends on rounded positions; that no ratio and no position breaks the order can only be shown for all of them at once.", "anchors": ["src/streaming.rs:Sink::stream"]}
{"id": "C148", "title": "A lower rate samples the same sound", "statement": "Audio at a sample rate src holds a sound sampled every 1/src seconds. Streamed into a sink of a lower rate dst, it holds the same sound sampled every 1/dst seconds: slot x is the value of the sound at the time x/dst, less half a slot, plus half a frame, up to the curvature of the sound, an eighth of a frame of its slope and the accuracy of the box filter.", "quantifier": "for all pairs of rates, formats and layouts, all streams, all slots, all sounds (functions of the time) and all slopes", "why_tests_cant": "A test compares the output with one sound at one pair of rates; that the time of a slot never drifts, for any pair of rates and any length, needs the first moment of the weights of every slot.", "anchors": ["src/streaming.rs:Sink::stream", "src/audio.rs:Audio::with_stream"]}
{"id": "C149", "title": "A tone keeps its pitch when the rate goes down", "statement": "A tone (a cosine of any frequency, level and phase) that is streamed into a sink of a lower rate becomes a tone of the same frequency; tones of more than half the new rate vanish. When the rate is divided by N, a tone that turns by the angle d from frame to frame comes out with sin(N d / 2) / (N sin(d / 2)) times its level.", "quantifier": "for all frequencies, levels, phases, formats and layouts, all streams within e of the tone, and all slots", "why_tests_cant": "The level depends on the frequency, the factor and the phase of the slot in an infinite family; a test listens to a few tones. The proof sums the cosine over each slot and adds the rounding of positions and weights.", "anchors": ["src/streaming.rs:Sink::stream"]}
{"id": "C150", "title": "The mean over a stretch of time is kept, at every ratio", "statement": "The slots from a to b of a resampled signal add up to the ratio of the rates times the frames of the stream with a position from a to b, up to twice the largest sample, however long the stretch: over long stretches the mean of the output is the mean of the input, whatever the ratio.", "quantifier": "for all streams, layouts and ratios, all stretches [a, b) within what the stream covers, and all channels", "why_tests_cant": "The error must not grow with the stretch or with the number of frames that cross slot borders, which no finite list of buffers shows. The proof compares the weight that all slots before a border get with the weight of all frames before it.", "anchors": ["src/streaming.rs:Sink::stream"]}
{"id": "C151", "title": "A tone keeps its pitch when the rate goes up", "statement": "A tone (a cosine of any frequency, level and phase) that is streamed into a sink of a higher rate becomes a tone of the same frequency and level, and nothing else.", "quantifier": "for all whole factors, frequencies, levels, phases, formats and layouts, all streams within e of the tone, and all slots", "why_tests_cant": "The claim is about the sum of N tones in each of infinitely many slots. The proof evaluates the sum of the images by the closed form for sums of cosines and compares it with what every slot gets.", "anchors": ["src/streaming.rs:Sink::stream"]}
{"id": "C152", "title": "The sawtooth example prints a sawtooth", "statement": "The program examples/sawtooth.rs finishes and prints a sawtooth: 279 pairs of equal 16 bit numbers that rise from frame to frame along a straight line from -32768 to 32767.", "quantifier": "the one run of the program; all numbers that it prints", "why_tests_cant": "The program is end to end and is not checked by anything in the repository; that the numbers are wrong in places is hard to see in a list of 558, and a test would need an independent specification of the line.", "anchors": ["examples/sawtooth.rs:main", "src/audio.rs:Audio::with_stream", "src/streaming.rs:Sink::stream"]}
{"id": "C153", "title": "Upsampling keeps signals that change slowly", "statement": "Audio that is converted to a rate that is higher by less than a factor of two has in every slot the value of the frames next to it, up to the difference between neighbouring frames.", "quantifier": "for all pairs of whole rates, formats, layouts, all finite streams, all frames and all slots", "why_tests_cant": "Which slots have a frame of their own depends on rounded positions and on the pair of rates; for usual rates it is one in twelve that has none, and a test with short or silent audio does not see it.", "anchors": ["src/audio.rs:Audio::with_stream", "src/streaming.rs:Sink::stream"]}
{"id": "C154", "title": "Resampling adds no movement", "statement": "The movement of a signal over a stretch of time, the sum of all steps up and down between neighbouring samples, does not become larger by resampling: no ripple is added.", "quantifier": "for all rates, formats, layouts, all finite and infinite streams of samples in range, all stretches of slots of any length", "why_tests_cant": "A sum over any number of slots and frames, with weights that depend on rounded positions; tests compare a few values, and ripple of a few steps is easily taken for rounding.", "anchors": ["src/streaming.rs:Sink::stream", "src/audio.rs:Audio::with_stream"]}
{"id": "C155", "title": "Resampling adds no crossings", "statement": "Resampled audio crosses zero, or any other level, at most as often as the original: whenever slots are in turn above and below a level, so are frames of the stream, in the same order.", "quantifier": "for all rates, formats, layouts, all finite and infinite streams of samples in range, all levels, all numbers of crossings and all choices of slots", "why_tests_cant": "A statement about sequences of slots of any length; wrong signs or misplaced frames at the seam between two slots add crossings only for some ratios and some phases.", "anchors": ["src/streaming.rs:Sink::stream", "src/audio.rs:Audio::with_stream"]}
{"id": "C156", "title": "Resampling does not raise the loudness, however it is measured", "statement": "The mean over all samples of any convex measure of loudness (absolute value, any even power, what exceeds a threshold) is not larger after resampling than before.", "quantifier": "for all convex functions that are 0 for silence and nowhere negative, all rates, formats, layouts, all finite and infinite streams of samples in range", "why_tests_cant": "One statement for all measures at once; a test looks at one of them, for a few signals and ratios.", "anchors": ["src/streaming.rs:Sink::stream", "src/audio.rs:Audio::with_stream"]}
{"id": "C157", "title": "No signal is lost by resampling to a lower rate", "statement": "A signal that is not silent is not silent after resampling to a lower rate, if its mean is not 0.", "quantifier": "for all rates that do not go up, all formats and layouts, all finite and infinite streams", "why_tests_cant": "The weights are made into samples of the destination format and the products are rounded towards 0 one at a time, so quiet signals vanish in the integer formats; a test with loud signals does not show it.", "anchors": ["src/streaming.rs:Sink::stream", "src/audio.rs:Audio::with_stream"]}
{"id": "C158", "title": "Further trips through a higher rate lose nothing more", "statement": "Audio that is made into audio of a higher rate and back, any number of times, is what it is after the first time.", "quantifier": "for all numbers of trips, all audio in range, all layouts and formats, factors that are powers of two", "why_tests_cant": "Says what becomes of copies of copies; a test makes one trip or two. In the integer formats every trip takes the same part away, so that nothing is left after a few.", "anchors": ["src/audio.rs:Audio::with_stream", "src/streaming.rs:Sink::stream"]}
{"id": "C159", "title": "Short sounds are not lost by resampling", "statement": "Audio that is made from a stream of a few loud frames is not silent, even if the stream is shorter than one slot of the new rate.", "quantifier": "for all rates, all layouts and formats, all streams of finite length", "why_tests_cant": "The range of slots is the ratio times the number of frames, rounded down, although the length of the audio is rounded up; if it is empty, the loop ends before the first frame. Tests use sounds that are longer than a slot.", "anchors": ["src/streaming.rs:Sink::stream", "src/audio.rs:Audio::with_stream"]}
