import Verif.Model.FirstLine
/-
Model of the copy constructors and assignment operators of messages, member by member.
-/
namespace Verif.FirstLine

/-- The copy constructor of `message` (/repo/include/pion/http/message.hpp:104-122), with that of `response`
    (/repo/include/pion/http/response.hpp:55-60) and the implicit one of `request`. The content is copied as a value, see
    Props/ContentBuffer. -/
def F.copy (f : F) : F where
  cache := f.cache
  msg :=
    { isValid := f.msg.isValid, isChunked := f.msg.isChunked, chunksSupported := f.msg.chunksSupported
      doNotSendContentLength := f.msg.doNotSendContentLength, verMajor := f.msg.verMajor, verMinor := f.msg.verMinor
      contentLength := f.msg.contentLength, content := f.msg.content, chunkCache := f.msg.chunkCache
      headers := f.msg.headers, cookies := f.msg.cookies, status := f.msg.status, missing := f.msg.missing
      afterMissing := f.msg.afterMissing
      method := f.msg.method, resource := f.msg.resource, originalResource := f.msg.originalResource
      queryString := f.msg.queryString, queries := f.msg.queries
      statusCode := f.msg.statusCode, statusMessage := f.msg.statusMessage, requestMethod := f.msg.requestMethod }

/-- The assignment `f = g` (/repo/include/pion/http/message.hpp:125-143), with the implicit ones of `request` and
    `response`. -/
def F.assign (f g : F) : F where
  cache := g.cache
  msg :=
    { f.msg with
      isValid := g.msg.isValid, isChunked := g.msg.isChunked, chunksSupported := g.msg.chunksSupported
      doNotSendContentLength := g.msg.doNotSendContentLength, verMajor := g.msg.verMajor, verMinor := g.msg.verMinor
      contentLength := g.msg.contentLength, content := g.msg.content, chunkCache := g.msg.chunkCache
      headers := g.msg.headers, cookies := g.msg.cookies, status := g.msg.status, missing := g.msg.missing
      afterMissing := g.msg.afterMissing
      method := g.msg.method, resource := g.msg.resource, originalResource := g.msg.originalResource
      queryString := g.msg.queryString, queries := g.msg.queries
      statusCode := g.msg.statusCode, statusMessage := g.msg.statusMessage, requestMethod := g.msg.requestMethod }

end Verif.FirstLine
