import Verif.Check.Samples
import Verif.Lemmas.Ahead
import Verif.Lemmas.Bytes
import Verif.Lemmas.ConvErrors
import Verif.Lemmas.Cost
import Verif.Lemmas.Damage
import Verif.Lemmas.DecInv
import Verif.Lemmas.DecRun
import Verif.Lemmas.Descent
import Verif.Lemmas.DescentGrammar
import Verif.Lemmas.DescentRun
import Verif.Lemmas.DescentSeek
import Verif.Lemmas.Enc
import Verif.Lemmas.EncOps
import Verif.Lemmas.EncRender
import Verif.Lemmas.Errors
import Verif.Lemmas.Eval
import Verif.Lemmas.ExpandWork
import Verif.Lemmas.Feed
import Verif.Lemmas.Fetch
import Verif.Lemmas.Fill
import Verif.Lemmas.FillSrc
import Verif.Lemmas.Final
import Verif.Lemmas.FrameDec
import Verif.Lemmas.Free
import Verif.Lemmas.FreeFilm
import Verif.Lemmas.Gather
import Verif.Lemmas.Grammar
import Verif.Lemmas.History
import Verif.Lemmas.Interlace
import Verif.Lemmas.Inv
import Verif.Lemmas.Like
import Verif.Lemmas.Limit
import Verif.Lemmas.Micro
import Verif.Lemmas.NoOom
import Verif.Lemmas.Prefix
import Verif.Lemmas.Pull
import Verif.Lemmas.Reel
import Verif.Lemmas.Refuse
import Verif.Lemmas.Remain
import Verif.Lemmas.Resume
import Verif.Lemmas.Room
import Verif.Lemmas.RoundTrip
import Verif.Lemmas.Scene
import Verif.Lemmas.Shape
import Verif.Lemmas.Sim
import Verif.Lemmas.Split
import Verif.Lemmas.Step
import Verif.Lemmas.StepSpec
import Verif.Lemmas.Strict
import Verif.Lemmas.Trace
import Verif.Lemmas.Twin
import Verif.Lemmas.Unambiguous
import Verif.Lemmas.Unique
import Verif.Lemmas.Uphold
import Verif.Lemmas.Upto
import Verif.Lemmas.Walk
import Verif.Lemmas.Work
import Verif.Lemmas.WorkSum
import Verif.Lemmas.Writer
import Verif.Model.Access
import Verif.Model.Alloc
import Verif.Model.Basic
import Verif.Model.Build
import Verif.Model.Client
import Verif.Model.Common
import Verif.Model.Converter
import Verif.Model.Decoder
import Verif.Model.Encoder
import Verif.Model.Examples
import Verif.Model.FrameNew
import Verif.Model.Lzw
import Verif.Model.Messages
import Verif.Model.Options
import Verif.Model.Parallel
import Verif.Model.Platform
import Verif.Model.Port
import Verif.Model.Refuse
import Verif.Model.Scratch
import Verif.Model.Setters
import Verif.Model.Streaming
import Verif.Props.Access
import Verif.Props.AccessCases
import Verif.Props.Again
import Verif.Props.AgainCases
import Verif.Props.Agree
import Verif.Props.Ahead
import Verif.Props.AheadCases
import Verif.Props.Alike
import Verif.Props.AlikeCases
import Verif.Props.AppliedDecoder
import Verif.Props.AppliedEncoder
import Verif.Props.AppliedStreaming
import Verif.Props.Buffers
import Verif.Props.Build
import Verif.Props.Chunks
import Verif.Props.Client
import Verif.Props.ClientCases
import Verif.Props.Cost
import Verif.Props.CostCases
import Verif.Props.Damage
import Verif.Props.DamageCases
import Verif.Props.Descent
import Verif.Props.Documented
import Verif.Props.Drawing
import Verif.Props.DrawingCases
import Verif.Props.EncoderFile
import Verif.Props.EncoderIo
import Verif.Props.EndCode
import Verif.Props.ErrorCases
import Verif.Props.Errors
import Verif.Props.Events
import Verif.Props.Expand
import Verif.Props.ExpandCases
import Verif.Props.ExpandWork
import Verif.Props.Explode
import Verif.Props.ExplodeCases
import Verif.Props.ExtensionCases
import Verif.Props.Extensions
import Verif.Props.Film
import Verif.Props.Final
import Verif.Props.FinalCases
import Verif.Props.FrameDecoder
import Verif.Props.FrameDecoderCases
import Verif.Props.Frames
import Verif.Props.Gist
import Verif.Props.GistCases
import Verif.Props.Given
import Verif.Props.GivenCases
import Verif.Props.Grammar
import Verif.Props.GrammarCases
import Verif.Props.Growing
import Verif.Props.Heading
import Verif.Props.HeadingCases
import Verif.Props.Honest
import Verif.Props.Images
import Verif.Props.Iterator
import Verif.Props.Join
import Verif.Props.JoinCases
import Verif.Props.Kindred
import Verif.Props.KindredCases
import Verif.Props.LastWord
import Verif.Props.LastWordCases
import Verif.Props.Live
import Verif.Props.LiveCases
import Verif.Props.Loop
import Verif.Props.LoopCases
import Verif.Props.Mask
import Verif.Props.Memory
import Verif.Props.MemoryCases
import Verif.Props.Messages
import Verif.Props.MessagesCases
import Verif.Props.Misplaced
import Verif.Props.MisplacedCases
import Verif.Props.NoBlocks
import Verif.Props.OutOfMemory
import Verif.Props.Oversized
import Verif.Props.OversizedCases
import Verif.Props.OwnFiles
import Verif.Props.OwnLoop
import Verif.Props.OwnLoopCases
import Verif.Props.OwnStream
import Verif.Props.Parallel
import Verif.Props.Pipeline
import Verif.Props.Pixels
import Verif.Props.Platform
import Verif.Props.Port
import Verif.Props.PortCases
import Verif.Props.ReadAll
import Verif.Props.Recolour
import Verif.Props.RecolourCases
import Verif.Props.Reencode
import Verif.Props.ReencodeCases
import Verif.Props.ReencodeFrames
import Verif.Props.ReencodeRun
import Verif.Props.Refuse
import Verif.Props.RefuseCases
import Verif.Props.Remark
import Verif.Props.RemarkCases
import Verif.Props.Rewrite
import Verif.Props.RoundTrip
import Verif.Props.RoundTripApi
import Verif.Props.RoundTripCases
import Verif.Props.Safety
import Verif.Props.Salvage
import Verif.Props.SalvageCases
import Verif.Props.Scene
import Verif.Props.SceneCases
import Verif.Props.ScenePixels
import Verif.Props.Scratch
import Verif.Props.ScratchCases
import Verif.Props.Setters
import Verif.Props.Size
import Verif.Props.Spoil
import Verif.Props.SpoilCases
import Verif.Props.Stream
import Verif.Props.StreamCases
import Verif.Props.Streaming
import Verif.Props.Strict
import Verif.Props.Tint
import Verif.Props.Transcode
import Verif.Props.TranscodeCases
import Verif.Props.TwoWays
import Verif.Props.TwoWaysCases
import Verif.Props.Unambiguous
import Verif.Props.UnambiguousCases
import Verif.Props.Unknown
import Verif.Props.Ways
import Verif.Props.Work
import Verif.Props.WorkCases
import Verif.Props.ZeroArea
import Verif.Ref.Lawful
import Verif.Ref.Lzw
import Verif.Ref.Safe
import Verif.Ref.Slow
import Verif.Spec.Agree
import Verif.Spec.Alike
import Verif.Spec.AsWritten
import Verif.Spec.Blocks
import Verif.Spec.Cost
import Verif.Spec.Descent
import Verif.Spec.Drawing
import Verif.Spec.Errors
import Verif.Spec.ExpandWork
import Verif.Spec.Film
import Verif.Spec.GifSyntax
import Verif.Spec.Gist
import Verif.Spec.Growing
import Verif.Spec.Heading
import Verif.Spec.History
import Verif.Spec.Interlace
import Verif.Spec.Jobs
import Verif.Spec.Join
import Verif.Spec.Kindred
import Verif.Spec.Live
import Verif.Spec.Loop
import Verif.Spec.LzwContract
import Verif.Spec.Meaning
import Verif.Spec.Oversized
import Verif.Spec.Paint
import Verif.Spec.Picture
import Verif.Spec.Protocol
import Verif.Spec.Reading
import Verif.Spec.Recolour
import Verif.Spec.Refuse
import Verif.Spec.Remark
import Verif.Spec.RoundTrip
import Verif.Spec.Salvage
import Verif.Spec.Scene
import Verif.Spec.Session
import Verif.Spec.Source
import Verif.Spec.Spoil
import Verif.Spec.Stream
import Verif.Spec.Tint
import Verif.Spec.Transcript
import Verif.Spec.TwoWays
import Verif.Spec.Ways
import Verif.Spec.Work
