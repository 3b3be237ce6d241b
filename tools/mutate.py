#!/usr/bin/env python3
"""Wrong-program experiments: applies each edit of a JSON list to a scratch copy of lean/, rebuilds and
reports the declarations that fail.  usage: mutate.py MUTANTS.json OUT.jsonl [WORKDIR]
A mutant: {"def","file","old","new","edit","claim"}."""
import json, os, re, shutil, signal, subprocess, sys, time
root = os.path.dirname(os.path.dirname(os.path.abspath(__file__)))
muts = json.load(open(sys.argv[1])); out = sys.argv[2]
work = sys.argv[3] if len(sys.argv) > 3 else '/tmp/mut/lean'
subprocess.run(['rsync', '-a', '--delete', root + '/lean/', work + '/'], check=True) if shutil.which('rsync') else (shutil.rmtree(work, ignore_errors=True), shutil.copytree(root + '/lean', work, symlinks=True))
top = work + '/Verif.lean'  # the test records are no properties
src = ''.join(l for l in open(top) if 'Verif.Testkit' not in l)
open(top, 'w').write(src)
def enclosing(path, line):
    last = '?'
    for i, l in enumerate(open(path), 1):
        m = re.match(r'(?:private |protected |@\[[^\]]*\] )*(theorem|def|example|lemma|instance|inductive|structure)\s+(\S+)?', l)
        if m: last = m.group(2) if m.group(1) != 'example' else 'example@%d' % i
        if i >= line: return last
    return last
for m in muts:
    p = os.path.join(work, 'Verif', m['file'])
    s = open(p).read()
    if s.count(m['old']) < 1:
        print('NOT FOUND', m['def'], m['old']); continue
    open(p, 'w').write(s.replace(m['old'], m['new'], 1))
    log = work + '.log'
    r = subprocess.Popen(['lake', 'build'], cwd=work, stdout=open(log, 'w'), stderr=subprocess.STDOUT, start_new_session=True)
    seen = 0
    while r.poll() is None:  # a minute after the first failure the rest is not awaited
        time.sleep(2)
        if not seen and 'error: Verif' in open(log).read(): seen = time.time()
        if seen and time.time() - seen > 60: os.killpg(r.pid, signal.SIGKILL)
    txt = open(log).read()
    failed = []
    for f, ln in re.findall(r'error: (Verif\S*\.lean):(\d+):', txt):
        d = enclosing(os.path.join(work, f), int(ln))
        if d not in failed: failed.append(d)
    open(p, 'w').write(s)
    rec = {'definition': m['def'], 'edit': m['edit'], 'breaks': m['claim'], 'failed': failed, 'tightened': m.get('tightened', [])}
    open(out, 'a').write(json.dumps(rec, ensure_ascii=False) + '\n')
    print('SURVIVED' if r.returncode == 0 else 'killed', m['def'], '|', m['edit'], '|', failed[:8], flush=True)
