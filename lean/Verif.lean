import Verif.Float.Round
import Verif.Float.Fl
import Verif.Model.Rust
import Verif.Model.Math
import Verif.Model.Chan
import Verif.Model.Frame
import Verif.Model.Ops
import Verif.Model.Streaming
import Verif.Model.Audio
import Verif.Model.Heap
import Verif.Spec.Float
import Verif.Proofs.Int
import Verif.Proofs.Fl
import Verif.Proofs.Floor
import Verif.Proofs.Conv
import Verif.Props.ChanInt
import Verif.Props.ChanFloat
import Verif.Props.ChanMisc
import Verif.Spec.Stream
import Verif.Proofs.Vec
import Verif.Proofs.Stream
import Verif.Props.Frame
import Verif.Props.Ops
import Verif.Props.Stream
import Verif.Spec.Sink
import Verif.Proofs.Sink
import Verif.Proofs.Copy
import Verif.Props.Sink
import Verif.Props.Mix
import Verif.Proofs.DC
import Verif.Proofs.MixLaw
import Verif.Props.Const
import Verif.Spec.Heap
import Verif.Props.Audio
import Verif.Props.Heap
import Verif.Spec.Level
import Verif.Model.StreamOf
import Verif.Props.ChanAlg
import Verif.Props.ChanCross
import Verif.Props.ChanLevel
import Verif.Props.Chunk
import Verif.Props.Grow
import Verif.Props.Upsample
import Verif.Props.StreamOf
import Verif.Proofs.Rel
import Verif.Proofs.Range
import Verif.Props.Structure
import Verif.Props.Extend
import Verif.Props.CrossArith
import Verif.Model.Tests
import Verif.Model.Mixed
import Verif.Props.Mixed
import Verif.Model.Unwind
import Verif.Props.Unwind
import Verif.Props.Pan
import Verif.Model.Examples
import Verif.Props.Examples
import Verif.Props.Area
import Verif.Model.New
import Verif.Props.New
import Verif.Spec.Upmix
import Verif.Props.Upmix
import Verif.Spec.RoundTrip
import Verif.Props.RoundTrip
import Verif.Model.Release
import Verif.Props.Release
import Verif.Props.ExtendUp
import Verif.Props.UpLinear
import Verif.Props.Layout
import Verif.Props.Format
import Verif.Props.MixOrder
import Verif.Props.ExtendLaws
import Verif.Spec.Chan
import Verif.Spec.Frame
import Verif.Spec.Pan
import Verif.Spec.New
import Verif.Spec.Unwind
import Verif.Spec.Release
import Verif.Spec.Examples
import Verif.Props.Resampler
import Verif.Model.Ring
import Verif.Spec.Ring
import Verif.Props.Ring
import Verif.Model.Generic
import Verif.Spec.Generic
import Verif.Props.Generic
import Verif.Model.Bytes
import Verif.Props.Bytes
import Verif.Props.Delay
import Verif.Props.UserBlend
import Verif.Spec.Downmix
import Verif.Props.Whole
import Verif.Props.Downmix
import Verif.Props.DelayUp
import Verif.Spec.TwoStep
import Verif.Props.TwoStep
import Verif.Spec.Drains
import Verif.Props.Drains
import Verif.Model.Counter
import Verif.Props.Counter
import Verif.Spec.Fused
import Verif.Props.Fused
import Verif.Props.Local
import Verif.Spec.Opposite
import Verif.Props.Opposite
import Verif.Model.Width
import Verif.Spec.Width
import Verif.Props.Width
import Verif.Spec.Ieee
import Verif.Props.Ieee
import Verif.Spec.Endless
import Verif.Props.Endless
import Verif.Spec.Silence
import Verif.Props.Silence
import Verif.Spec.Quant
import Verif.Props.Quant
import Verif.Props.Length
import Verif.Spec.Ints
import Verif.Props.Ints
import Verif.Spec.Mean
import Verif.Props.Mean
import Verif.Model.GenericAudio
import Verif.Spec.GenericAudio
import Verif.Props.GenericAudio
import Verif.Model.Forget
import Verif.Spec.Forget
import Verif.Props.Forget
import Verif.Model.GenericAdapt
import Verif.Spec.GenericAdapt
import Verif.Props.GenericAdapt
import Verif.Model.Effects
import Verif.Spec.Effects
import Verif.Props.Effects
import Verif.Model.EffectsAudio
import Verif.Spec.EffectsAudio
import Verif.Props.EffectsAudio
import Verif.Spec.Standard
import Verif.Props.Standard
import Verif.Props.Append
import Verif.Props.StandardSharp
import Verif.Props.Close
import Verif.Props.Time
import Verif.Props.Convert
import Verif.Props.Sharp
import Verif.Props.Stable
import Verif.Props.Parts
import Verif.Props.Steps
import Verif.Props.Causal
import Verif.Props.Mirror
import Verif.Props.Periodic
import Verif.Props.Pieces
import Verif.Props.Volume
import Verif.Props.LowPass
import Verif.Props.Energy
import Verif.Spec.ThereBack
import Verif.Props.ThereBack
import Verif.Props.TwoStepUp
import Verif.Props.ThereBackWith
import Verif.Props.ConvertUp
import Verif.Props.Backwards
import Verif.Props.UsualUp
import Verif.Spec.Effect
import Verif.Props.Effect
import Verif.Spec.StepsApart
import Verif.Props.Mixer
import Verif.Props.MixList
import Verif.Props.Fade
import Verif.Props.Power
import Verif.Props.Rising
import Verif.Props.Line
import Verif.Props.Tone
import Verif.Props.Stretch
import Verif.Props.Image
import Verif.Props.Sawtooth
import Verif.Props.Own
import Verif.Props.Movement
import Verif.Props.Crossing
import Verif.Props.Loudness
import Verif.Props.Vanish
import Verif.Spec.Trips
import Verif.Props.Trips
import Verif.Props.WithForms
import Verif.Props.WithMore
import Verif.Props.WithTwice
import Verif.Props.TripsAny
import Verif.Props.TripsIff
import Verif.Props.Short
