import Verif.Go.Basic
import Verif.Go.Buf
import Verif.Go.File
import Verif.Go.Path
import Verif.Go.FS
import Verif.Go.Fmt
import Verif.Go.Utf8
import Verif.Go.Regexp
import Verif.Go.Strings
import Verif.Go.Time
import Verif.Go.Slice
import Verif.Go.Calendar
import Verif.Go.Json
import Verif.Model.Cstr
import Verif.Model.FileHeader
import Verif.Model.Board
import Verif.Model.Userec
import Verif.Model.UserInfo
import Verif.Model.Fav
import Verif.Model.RecordFile
import Verif.Model.Path
import Verif.Model.Treasure
import Verif.Model.DB
import Verif.Model.Comment
import Verif.Model.Lists
import Verif.Model.Connector
import Verif.Model.Logins
import Verif.Model.CryptTables
import Verif.Model.Crypt
import Verif.Model.Settings
import Verif.Model.Cache
import Verif.Model.Fnv
import Verif.Model.Tool
import Verif.Model.Formosa
import Verif.Model.Server
import Verif.Model.ServerMain
import Verif.Model.Factory
import Verif.Model.ToolMain
import Verif.Model.SharedMem
import Verif.Model.Big5
import Verif.Model.Interleave
import Verif.Model.PostCrash
import Verif.Model.Api
import Verif.Model.Answer
import Verif.Model.Handles
import Verif.Model.OnlineFile
import Verif.Model.Concurrent
import Verif.Model.Script
import Verif.Model.Search
import Verif.Model.Alone
import Verif.Model.Outage
import Verif.Model.Inodes
import Verif.Model.ErrText
import Verif.Model.FullDisk
import Verif.Model.Token
import Verif.Model.PowerLoss
import Verif.Model.LiveNumbers
import Verif.Model.Removers
import Verif.Model.Driver
import Verif.Model.Collector
import Verif.Model.Refusal
import Verif.Model.Descriptors
import Verif.Model.Sharing
import Verif.Model.Accessors
import Verif.Model.Limits
import Verif.Model.CacheValue
import Verif.Model.RefusedClients
import Verif.Model.FullClients
import Verif.Model.Accounts
import Verif.Model.Racing
import Verif.Model.Log
import Verif.Model.RandomNames
import Verif.Model.Links
import Verif.Model.PartLoss
import Verif.Model.WeakRacing
import Verif.Model.Told
import Verif.Model.ToldSearch
import Verif.Conformance.Articles
import Verif.Conformance.Behaviour
import Verif.Conformance.Boards
import Verif.Conformance.Favourites
import Verif.Conformance.Formosa
import Verif.Conformance.Logins
import Verif.Conformance.Online
import Verif.Conformance.Paths
import Verif.Conformance.Tables
import Verif.Conformance.Texts
import Verif.Conformance.Users
import Verif.Spec.Fields
import Verif.Spec.Fav
import Verif.Spec.Records
import Verif.Spec.Removal
import Verif.Spec.Paths
import Verif.Spec.Store
import Verif.Spec.Text
import Verif.Spec.Des
import Verif.Spec.Unicode
import Verif.Spec.Big5
import Verif.Spec.FavTitles
import Verif.Spec.Json
import Verif.Spec.Rfc3339
import Verif.Spec.Concurrent
import Verif.Spec.Script
import Verif.Spec.Decent
import Verif.Spec.Search
import Verif.Spec.Outage
import Verif.Spec.Inodes
import Verif.Spec.Progress
import Verif.Spec.Token
import Verif.Spec.PowerLoss
import Verif.Spec.Answered
import Verif.Spec.Removers
import Verif.Spec.ToolPost
import Verif.Spec.Driver
import Verif.Proofs.Record
import Verif.Proofs.Fav
import Verif.Proofs.RecordFile
import Verif.Proofs.Removal
import Verif.Proofs.RemovalRun
import Verif.Proofs.Paths
import Verif.Proofs.FS
import Verif.Proofs.Regexp
import Verif.Proofs.Time
import Verif.Proofs.Strings
import Verif.Proofs.Linear
import Verif.Proofs.CryptPerm
import Verif.Proofs.CryptRound
import Verif.Proofs.CryptBody
import Verif.Proofs.Decode
import Verif.Proofs.SharedMem
import Verif.Proofs.Big5
import Verif.Proofs.FavTitles
import Verif.Proofs.Calendar
import Verif.Proofs.Json
import Verif.Proofs.Concurrent
import Verif.Proofs.Script
import Verif.Proofs.Decent
import Verif.Proofs.Posting
import Verif.Proofs.Diary
import Verif.Proofs.Prog
import Verif.Proofs.Search
import Verif.Proofs.Searcher
import Verif.Proofs.Alone
import Verif.Proofs.Outage
import Verif.Proofs.Inodes
import Verif.Proofs.Progress
import Verif.Proofs.Token
import Verif.Proofs.Answered
import Verif.Proofs.Removers
import Verif.Proofs.ToolPost
import Verif.Props.Cstr
import Verif.Props.ArticleRecord
import Verif.Props.BoardRecord
import Verif.Props.UserRecord
import Verif.Props.OnlineRecord
import Verif.Props.Fav
import Verif.Props.RecordFiles
import Verif.Props.BoardRemoval
import Verif.Props.Paths
import Verif.Props.Drafts
import Verif.Props.Articles
import Verif.Props.Ansi
import Verif.Props.Comment
import Verif.Props.Lists
import Verif.Props.Connector
import Verif.Props.Logins
import Verif.Props.Crypt
import Verif.Props.Flags
import Verif.Props.Cache
import Verif.Props.Fnv
import Verif.Props.Tool
import Verif.Props.Formosa
import Verif.Props.Server
import Verif.Props.Decode
import Verif.Props.Routes
import Verif.Props.ServerMain
import Verif.Props.Factory
import Verif.Props.ToolFlags
import Verif.Props.ToolMain
import Verif.Props.ToolWork
import Verif.Props.AnsiExact
import Verif.Props.CommentExact
import Verif.Props.CacheExact
import Verif.Props.FavItems
import Verif.Props.TimeText
import Verif.Props.FileIndex
import Verif.Props.CLayout
import Verif.Props.SharedMem
import Verif.Props.MappedFile
import Verif.Props.CacheOpen
import Verif.Props.Big5
import Verif.Props.Big5Records
import Verif.Props.FavTitles
import Verif.Props.Big5Whole
import Verif.Props.Recommend
import Verif.Props.ReadBeside
import Verif.Props.DraftRace
import Verif.Props.PostCrash
import Verif.Props.Api
import Verif.Props.Answers
import Verif.Props.Handles
import Verif.Props.Failures
import Verif.Props.Big5Lines
import Verif.Props.Crashes
import Verif.Props.OnlineFile
import Verif.Props.Concurrent
import Verif.Props.Script
import Verif.Props.Decent
import Verif.Props.Search
import Verif.Props.Alone
import Verif.Props.Stopped
import Verif.Props.Outage
import Verif.Props.ToolShow
import Verif.Props.Inodes
import Verif.Props.Progress
import Verif.Props.ErrText
import Verif.Props.FullDisk
import Verif.Props.Token
import Verif.Props.PowerLoss
import Verif.Props.LiveNumbers
import Verif.Props.Answered
import Verif.Props.Removers
import Verif.Props.Trim
import Verif.Props.RemoversRead
import Verif.Props.Exactly
import Verif.Props.ToolPost
import Verif.Props.ToolOutage
import Verif.Props.Driver
import Verif.Props.DriverSearch
import Verif.Props.Collector
import Verif.Props.Refusal
import Verif.Props.Descriptors
import Verif.Props.Sharing
import Verif.Props.Accessors
import Verif.Props.Limits
import Verif.Props.CacheValue
import Verif.Props.RefusedClients
import Verif.Props.FullClients
import Verif.Props.Sharper
import Verif.Props.Accounts
import Verif.Props.Inside
import Verif.Props.Racing
import Verif.Props.Log
import Verif.Props.ExactLaws
import Verif.Props.SegmentLength
import Verif.Props.ExactLaws2
import Verif.Props.RandomNames
import Verif.Props.ExactLaws3
import Verif.Props.Links
import Verif.Props.Links2
import Verif.Props.PartLoss
import Verif.Props.FullExact
import Verif.Props.DraftMix
import Verif.Props.RacingAll
import Verif.Props.LogExact
import Verif.Props.Restart
import Verif.Props.Found
import Verif.Props.Remark
import Verif.Props.Canon
import Verif.Props.Meant
import Verif.Props.Pushed
import Verif.Props.Gone
import Verif.Props.WeakRacing
import Verif.Props.Tree
import Verif.Props.Silent
import Verif.Props.LogNames
import Verif.Props.CasesServer
import Verif.Props.CasesMemory
import Verif.Props.CasesAnswers
import Verif.Props.CasesRefusal
import Verif.Props.CasesTool
import Verif.Props.Told
import Verif.Props.Closer
import Verif.Props.ToldSearch
import Verif.Props.CasesTexts
import Verif.Props.ToldWhere
import Verif.Props.Again
import Verif.Props.Resent
import Verif.Props.CasesDisk
import Verif.Props.CasesCrash
import Verif.Props.Stays
import Verif.Props.Favoured
import Verif.Props.FoundAgain
import Verif.Props.CasesLaws
import Verif.Props.ReadersAgree
