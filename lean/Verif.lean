import Verif.Arith
import Verif.Fees
import Verif.Queue
import Verif.OrderId
import Verif.OpenOrders
import Verif.Codec
import Verif.Slab
import Verif.SlabBits
import Verif.SlabTree
import Verif.SlabProofs
import Verif.PropsFees
import Verif.PropsQueue
import Verif.PropsBook
import Verif.PropsIds
import Verif.PropsCodec
import Verif.Instr
import Verif.PropsInstr
import Verif.Impl
import Verif.Matching
import Verif.Sim
import Verif.Refine
import Verif.Processor
import Verif.ProcSim
import Verif.MatchSteps
import Verif.MatchPath
import Verif.MatchReport
import Verif.PropsMatch
import Verif.Slots
import Verif.MatchSums
import Verif.Accounts
import Verif.Inv
import Verif.InvOps
import Verif.InvExec
import Verif.InvCancel
import Verif.InvMatch
import Verif.InvOrder
import Verif.InvTake
import Verif.Frame
import Verif.InvAll
import Verif.Token
import Verif.History
import Verif.Demo
import Verif.PropsHist
import Verif.PropsCrank
import Verif.Tags
import Verif.Runs
import Verif.PropsCancel
import Verif.PropsFunds
import Verif.Acts
import Verif.PropsTags
import Verif.PropsTrade
import Verif.PropsFlow
import Verif.PropsClaims
import Verif.PropsAuth
import Verif.PropsDisabled
import Verif.PropsOrders
import Verif.Layout
import Verif.PropsLayout
import Verif.InitMarket
import Verif.PropsInit
import Verif.Pool
import Verif.PropsPool
import Verif.PropsShares
import Verif.Proxy
import Verif.PropsProxy
import Verif.PropsPoolHist
import Verif.PropsPoolVaults
import Verif.PropsPoolLive
import Verif.PropsExit
import Verif.PropsDocs
import Verif.Client
import Verif.PropsClient
import Verif.Crank
import Verif.PropsCrankClient
import Verif.PropsJournal
import Verif.Live
import Verif.LiveOrder
import Verif.PropsPlace
import Verif.PropsTake
import Verif.Fit
import Verif.FitProc
import Verif.Local
import Verif.Chain
import Verif.ChainBytes
import Verif.ChainInv
import Verif.ChainHist
import Verif.PropsChain
import Verif.DemoChain
import Verif.Borsh
import Verif.PoolBytes
import Verif.PoolHist
import Verif.Utf8
import Verif.PropsPoolBytes
import Verif.PropsPools
import Verif.PropsChainExit
import Verif.Textbook
import Verif.PropsTextbook
import Verif.PropsWind
import Verif.PropsLife
import Verif.PropsRate
import Verif.PropsWhatIf
import Verif.PropsDue
import Verif.Errors
import Verif.PropsErrors
import Verif.Blame
import Verif.PropsReasons
import Verif.PropsRefused
import Verif.PropsRefusals
import Verif.PropsMembers
import Verif.Exchange
import Verif.PropsExchange
import Verif.PropsVenue
import Verif.PropsCan
import Verif.PropsImpartial
import Verif.PoolQuote
import Verif.PropsQuote
import Verif.PropsReplace
import Verif.Lossy
import Verif.PropsCrash
import Verif.Rent
import Verif.PropsRent
import Verif.PropsWire
import Verif.PropsOffsets
import Verif.PropsGains
import Verif.PropsLog
import Verif.PropsTrack
import Verif.PropsInitReasons
import Verif.Shift
import Verif.Swap
import Verif.PropsAnytime
import Verif.Embed
import Verif.PropsCrankTime
import Verif.PropsAlike
import Verif.PropsParts
import Verif.Replay
import Verif.PropsSame
import Verif.PropsReferral
import Verif.PropsAhead
import Verif.PropsAgain
import Verif.PropsBest
import Verif.PropsRoundTrip
import Verif.PropsGroup
import Verif.PropsWithdraw
import Verif.PropsSession
import Verif.PropsDepth
import Verif.PropsPieces
import Verif.PropsWalk
import Verif.PropsMonitor
import Verif.PropsWhole
import Verif.PropsDaemon
import Verif.PropsBuilders
import Verif.PropsMeet
import Verif.PropsRoom
import Verif.PropsScript
import Verif.PropsFull
import Verif.PropsDeep
import Verif.PropsSurplus
import Verif.PropsEventFields
import Verif.PropsTokens
import Verif.PropsSupply
import Verif.PropsCommon
import Verif.PropsBacked
import Verif.PropsAdjoint
import Verif.PropsPrune
