import Verif.Props.Base64
import Verif.Props.UrlCodec
import Verif.Props.XmlEncode
import Verif.Props.IntBytes
import Verif.Props.HttpSegmentation
import Verif.Props.HttpReset
import Verif.Props.HttpBody
import Verif.Props.HttpLimits
import Verif.Props.HttpAccounting
import Verif.Props.HttpMissing
import Verif.Props.Dict
import Verif.Props.HashTable
import Verif.Props.Query
import Verif.Props.Cookie
import Verif.Props.Multipart
import Verif.Props.MultipartThrow
import Verif.Props.PostedForm
import Verif.Props.PostedPairs
import Verif.Props.PostedAny
import Verif.Props.Uri
import Verif.Props.ForwardedFor
import Verif.Props.Message
import Verif.Props.Writer
import Verif.Props.Reader
import Verif.Props.FirstLine
import Verif.Props.FloatBytes
import Verif.Props.FloatApi
import Verif.Props.Dispatch
import Verif.Props.Users
import Verif.Props.Auth
import Verif.Props.PluginManager
import Verif.Props.Plugin
import Verif.Props.ServiceConfig
import Verif.Props.LogRing
import Verif.Props.LogAnswers
import Verif.Props.Scheduler
import Verif.Props.Timer
import Verif.Props.Stream
import Verif.Props.TcpServer
import Verif.Props.FileService
import Verif.Props.FileSender
import Verif.Props.FileHandover
import Verif.Props.SpdyFrames
import Verif.Props.SpdyKinds
import Verif.Props.Responses
import Verif.Props.AdminRights
import Verif.Props.PluginFiles
import Verif.Props.PluginInstance
import Verif.Props.ContentBuffer
import Verif.Props.HttpDate
import Verif.Props.Conversation
import Verif.Props.PluginServer
import Verif.Props.HttpGrammar
import Verif.Props.HttpFraming
import Verif.Props.HttpRfc
import Verif.Props.HttpUntilClose
import Verif.Props.Process
import Verif.Props.Piond
import Verif.Props.Connection
import Verif.Props.HttpServer
import Verif.Props.AuthThreads
import Verif.Props.PluginThreads
import Verif.Props.ReadTimer
import Verif.Props.FileAnswers
import Verif.Props.FileLookup
import Verif.Props.Workers
import Verif.Props.DataUrl
import Verif.Props.ServerThreads
import Verif.Props.FileThreads
import Verif.Props.WriterMemory
import Verif.Props.MessageBuild
import Verif.Props.ServerLife
import Verif.Props.SpdySession
import Verif.Props.CookieSession
import Verif.Props.PluginCode
import Verif.Props.BasicSession
import Verif.Props.FileSite
import Verif.Props.Errors
import Verif.Props.Listen
import Verif.Props.Exchange
import Verif.Props.Host
import Verif.Props.HeadFirst
import Verif.Props.RawHeaders
import Verif.Props.ServiceFaults
import Verif.Props.HttpRefusal
import Verif.Props.HttpRefusalBody
import Verif.Props.Blocking
import Verif.Props.Forward
import Verif.Props.Dialogue
import Verif.Props.CookieSite
import Verif.Props.HttpMemory
import Verif.Props.QueryMeaning
import Verif.Props.HelloServer
import Verif.Props.CookieText
import Verif.Props.TestFiles
import Verif.Props.TestLog
import Verif.Props.FormBody
import Verif.Props.Sleep
