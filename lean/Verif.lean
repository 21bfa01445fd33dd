import Verif.Props.Router
import Verif.Props.RouterTable
import Verif.Props.RouterExact
import Verif.Props.RouterHeap
import Verif.Props.Response
import Verif.Props.Context
import Verif.Props.Gzip
import Verif.Props.GzipExact
import Verif.Props.Inject
import Verif.Props.InjectOnce
import Verif.Props.InjectTerm
import Verif.Props.InjectKey
import Verif.Props.InjectApply
import Verif.Props.InjectApplyExact
import Verif.Props.Cookie
import Verif.Props.Rand
import Verif.Props.Cache
import Verif.Props.SessionCache
import Verif.Props.Session
import Verif.Props.Config
import Verif.Props.ConfigFiles
import Verif.Props.Conv
import Verif.Props.ConfigBind
import Verif.Props.Params
import Verif.Props.Binder
import Verif.Props.BindStruct
import Verif.Props.BindValues
import Verif.Props.ReqLogger
import Verif.Props.Log
import Verif.Props.Worker
import Verif.Props.Static
import Verif.Props.ApiRes
import Verif.Props.App
import Verif.Props.Action
import Verif.Props.CtxValue
import Verif.Props.ReqFilter
import Verif.Props.InjectConc
import Verif.Props.InjectOrigin
import Verif.Props.ResponseExact
import Verif.Props.DevPage
import Verif.Props.Classic
import Verif.Props.Setup
import Verif.Props.ContextExact
import Verif.Props.CacheKeys
import Verif.Props.CookieExact
import Verif.Props.SessionWorld
import Verif.Props.Upload
import Verif.Props.FilterKind
import Verif.Props.AppFilters
import Verif.Props.InjectTyped
import Verif.Props.InjectPanic
import Verif.Props.WireCode
import Verif.Props.Jar
import Verif.Props.ValueConv
import Verif.Props.BindMap
import Verif.Props.ClassicEnv
import Verif.Props.Query
import Verif.Props.Returns
import Verif.Props.CtxValueExact
import Verif.Props.Counters
import Verif.Props.RealUrl
import Verif.Props.Wire
import Verif.Props.Site
import Verif.Props.SiteTrip
import Verif.Props.CounterSum
import Verif.Props.StructExact
import Verif.Props.SliceExact
import Verif.Props.WorkerOnce
import Verif.Props.Bson
import Verif.Props.Json
import Verif.Props.SessionHeap
import Verif.Props.GzipOut
import Verif.Props.RandCount
import Verif.Props.Hijack
import Verif.Props.CachePortable
import Verif.Props.CallSite
import Verif.Props.TimeParam
import Verif.Props.ReqLine
import Verif.Props.RouteCost
import Verif.Props.StaticRedirect
import Verif.Props.StaticSkip
import Verif.Props.GzipAccept
import Verif.Props.MethodName
import Verif.Props.Links
import Verif.Props.FilterOrigin
import Verif.Props.Guard
import Verif.Props.BsonKeys
import Verif.Props.Download
import Verif.Props.SessionFine
import Verif.Props.Ranges
import Verif.Props.BsonDamage
import Verif.Props.ApiError
import Verif.Props.StaticSite
import Verif.Props.CacheDriver
import Verif.Props.ReqTime
import Verif.Props.SiteOutage
import Verif.Props.Float
import Verif.Props.FloatNarrow
import Verif.Props.FloatText
import Verif.Props.ConfigExact
import Verif.Props.CacheLife
import Verif.Props.CacheTyped
import Verif.Props.ReqContext
import Verif.Props.GlobalLog
import Verif.Props.JsonFloat
import Verif.Props.JsonBytes
import Verif.Props.BsonTime
import Verif.Props.SessionOff
import Verif.Props.CondFile
import Verif.Props.RememberLogin
import Verif.Props.Assert
import Verif.Props.TimeJson
import Verif.Props.Dest
import Verif.Props.ParamsHeap
import Verif.Props.BindCycle
import Verif.Props.BindCalls
