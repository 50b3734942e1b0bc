import Verif.Core.Bytes
import Verif.Core.Reader
import Verif.Core.ReaderLemmas
import Verif.Serial.Model
import Verif.Serial.Lemmas
import Verif.Serial.Props
import Verif.Script.Instr
import Verif.Script.InstrLemmas
import Verif.Script.DecompileLemmas
import Verif.Script.InstrProps
import Verif.Script.Num
import Verif.Script.Machine
import Verif.Script.Interp
import Verif.Script.MachineLemmas
import Verif.Script.MachineInv
import Verif.Script.NumLemmas
import Verif.Script.SafeLemmas
import Verif.Script.InterpLemmas
import Verif.Script.MachineProps
import Verif.Script.StackLemmas
import Verif.Script.StackProps
import Verif.Script.SuccessLemmas
import Verif.Script.OutcomeProps
import Verif.Script.LockTime
import Verif.Script.VerifyProps
import Verif.Script.CondLemmas
import Verif.Script.CondProps
import Verif.Script.ShiftProps
import Verif.Sig.Model
import Verif.Sig.Props
import Verif.Keys.Der
import Verif.Script.RunLemmas
import Verif.Script.PayProps
import Verif.Script.LockProps
import Verif.Sig.Verify
import Verif.Sig.Spend
import Verif.Merkle.Model
import Verif.Merkle.Lemmas
import Verif.Merkle.ServerLemmas
import Verif.Merkle.Props
import Verif.Merkle.Bump
import Verif.Merkle.BumpCodec
import Verif.Merkle.BumpLemmas
import Verif.Merkle.BumpPaths
import Verif.Merkle.BumpProps
import Verif.Merkle.Tsc
import Verif.Script.ArithProps
import Verif.Script.BytesProps
import Verif.Keys.Secp
import Verif.Keys.SecpProps
import Verif.Text.Base58
import Verif.Text.Check
import Verif.Text.CheckProps
import Verif.Keys.HD
import Verif.Keys.HDProps
import Verif.Text.Words
import Verif.Text.Bip39
import Verif.Text.Bip39Props
import Verif.Script.SepProps
import Verif.Work.Model
import Verif.Work.Props
import Verif.Chain.Valid
import Verif.Chain.Props
import Verif.Script.MultisigProps
import Verif.Script.Pattern
import Verif.Script.PatternLemmas
import Verif.Script.PatternProps
import Verif.Boost.Model
import Verif.Boost.PatLemmas
import Verif.Boost.RoundProps
import Verif.Boost.SizeProps
import Verif.Boost.Line
import Verif.Boost.ExecLemmas
import Verif.Boost.ExecProps
import Verif.Script.PrecheckProps
import Verif.Pay.Extended
import Verif.Pay.ExtendedProps
import Verif.Pay.Redeem
import Verif.Pay.RedeemProps
import Verif.Merkle.Dual
import Verif.Merkle.DualProps
import Verif.Merkle.SumProps
import Verif.SPV.Database
import Verif.SPV.DatabaseProps
import Verif.SPV.ConfirmProps
import Verif.SPV.PendingProps
import Verif.SPV.Proof
import Verif.SPV.ProofProps
import Verif.SPV.Generate
import Verif.SPV.GenerateProps
import Verif.Pay.Beef
import Verif.Pay.BeefProps
import Verif.Pay.BeefProof
import Verif.Text.Hex
import Verif.Net.Json
import Verif.Pay.Envelope
import Verif.Pay.EnvelopeProps
import Verif.Pay.JsonEnvelope
import Verif.Pay.JsonEnvelopeProps
import Verif.Boost.Redeem
import Verif.Boost.RedeemProps
import Verif.Stratum.Mining
import Verif.Stratum.MiningLemmas
import Verif.Stratum.MiningProps
import Verif.Stratum.Message
import Verif.Stratum.MessageProps
import Verif.Stratum.Session
import Verif.Stratum.SessionProps
import Verif.Stratum.Remote
import Verif.Stratum.RemoteProps
import Verif.Stratum.Params
import Verif.Stratum.ParamsProps
import Verif.Text.Bip276
import Verif.Text.Bip276Props
import Verif.Keys.Random
import Verif.Keys.RandomProps
import Verif.Text.Time
import Verif.Text.TimeProps
import Verif.Stratum.Configure
import Verif.Stratum.ConfigureLemmas
import Verif.Stratum.ConfigureRead
import Verif.Stratum.ConfigureAnswer
import Verif.Stratum.ConfigureProps
import Verif.Stratum.ClientSession
import Verif.Stratum.ClientSessionProps
import Verif.Keys.Bip44
import Verif.Keys.Bip44Props
import Verif.Stratum.Job
import Verif.Stratum.JobProps
import Verif.Merkle.BumpSum
import Verif.Merkle.BumpTree
import Verif.Merkle.BumpSumProps
import Verif.Pay.BeefWrite
import Verif.Pay.BeefWriteProps
import Verif.Pay.BumpJson
import Verif.Pay.BumpJsonProps
import Verif.Pay.Mapi
import Verif.Pay.MapiProps
import Verif.Pay.Arc
import Verif.Pay.ArcProps
import Verif.Merkle.TscJson
import Verif.Merkle.TscJsonProps
import Verif.Merkle.TreeValid
import Verif.Merkle.TreeValidProps
import Verif.Script.Config
import Verif.Script.ConfigProps
import Verif.Script.Asm
import Verif.Script.AsmProps
import Verif.SPV.Order
import Verif.SPV.OrderProps
import Verif.Work.Difficulty
import Verif.Work.DifficultyProps
import Verif.Serial.Grammar
import Verif.Serial.GrammarProps
import Verif.Merkle.TscBinary
import Verif.Merkle.TscBinaryProps
import Verif.Pay.BeefGrammar
import Verif.Chain.Parts
import Verif.Chain.PartsProps
import Verif.Keys.SvRandom
import Verif.Keys.SvRandomProps
import Verif.Keys.SvStrong
import Verif.Keys.SvStrongProps
import Verif.Stratum.Told
import Verif.Stratum.ToldProps
import Verif.Keys.Context
import Verif.Keys.ContextProps
import Verif.Keys.Point
import Verif.Keys.PointProps
import Verif.P2p.Version
import Verif.P2p.VersionProps
import Verif.SPV.Equal
import Verif.SPV.EqualProps
import Verif.Keys.Wallet
import Verif.Keys.WalletProps
import Verif.Script.Strings
import Verif.Script.StringsProps
import Verif.Chain.Compare
import Verif.Chain.CompareProps
import Verif.Keys.Forms
import Verif.Keys.FormsProps
import Verif.Boost.Ask
import Verif.Boost.AskProps
import Verif.Core.Double
import Verif.Pay.FeeFor
import Verif.Pay.FeeForProps
import Verif.Work.Hardness
import Verif.Work.HardnessProps
import Verif.Stratum.History
import Verif.Stratum.HistoryProps
import Verif.Boost.Announce
import Verif.Boost.AnnounceProps
import Verif.Chain.Loader
import Verif.Chain.LoaderProps
import Verif.Script.Print
import Verif.Script.PrintProps
import Verif.Pay.Received
import Verif.Pay.ReceivedProps
import Verif.Pay.WatchProps
import Verif.Boost.MinedProps
import Verif.Pay.OnceProps
import Verif.Text.WordsJapanese
import Verif.Text.Bip39Lang
import Verif.Text.Bip39LangProps
import Verif.Chain.Unspendable
import Verif.Chain.UnspendableProps
import Verif.Script.ScriptHashProps
import Verif.Script.StricterLemmas
import Verif.Pay.StricterProps
import Verif.Merkle.CommitLemmas
import Verif.SPV.InBlockProps
import Verif.Sig.AddressProps
import Verif.Pay.AddressProps
import Verif.Sig.KeysProps
import Verif.Pay.KeysProps
import Verif.Pay.CoverProps
import Verif.Script.FreeProps
import Verif.Script.BelowProps
import Verif.Boost.AnyProps
import Verif.Script.EncodingProps
import Verif.Sig.NumbersProps
import Verif.Sig.ForwardProps
import Verif.Pay.IdProps
import Verif.Pay.IdAnyProps
import Verif.SPV.ConserveProps
import Verif.Pay.OwnedProps
import Verif.Pay.BeefOwnedProps
import Verif.Pay.ForgeProps
import Verif.Pay.StaysProps
import Verif.Script.AnswerProps
import Verif.Pay.AnswerProps
import Verif.Pay.EnvelopeOwnedProps
import Verif.Pay.Memory
import Verif.Pay.MemoryProps
import Verif.SPV.Asked
import Verif.SPV.AskedProps
import Verif.SPV.Turns
import Verif.SPV.TurnsProps
import Verif.Pay.EnvelopeSizeProps
import Verif.Script.HashLock
import Verif.Sig.HashLockProps
import Verif.SPV.Depth
import Verif.SPV.DepthProps
import Verif.SPV.UnspentProps
import Verif.Sig.Cached
import Verif.Sig.CachedProps
import Verif.Script.Held
import Verif.Script.HeldProps
import Verif.Script.Copies
import Verif.Script.CopiesProps
import Verif.Pay.Lost
import Verif.Pay.LostProps
import Verif.Stratum.Errors
import Verif.Stratum.ErrorsProps
import Verif.Script.Checks
import Verif.Script.ChecksProps
import Verif.Sig.TimeLockProps
import Verif.Script.UncheckedProps
import Verif.Sig.Hashed
import Verif.Sig.HashedProps
import Verif.Sig.BranchProps
import Verif.Sig.EndsProps
import Verif.Sig.WaysProps
import Verif.Sig.FirstProps
import Verif.Sig.EndKeysProps
